import Verif.Props.GGWRRun
import Verif.Props.GWRBasicRun

/-! # C108 for every kind of bandwidth, geographic coordinates and parallel selection -/

namespace Verif.Props
open Verif Verif.Model Verif.Spec Matrix Classical

variable {n k : ℕ}

/-- The information criterion of spatial weights `W` with the trace of the hat matrix taken over the locations in `S` only. -/
def IsAICScoreOver (S : Finset (Fin n)) (F : Family) (tol : ℝ) (m : ℕ) (x : Matrix (Fin n) (Fin k) ℝ) (y : Fin n → ℝ) (W : Fin n → Fin n → ℝ) (v : ℝ) :
    Prop :=
  ∃ (N : ℕ) (q : Sequence n k) (conv : Bool) (C : Fin n → Fin k → Fin n → ℝ) (tr : ℝ), IsCalibration F tol m x y W N q conv ∧
    (∀ i l, IsWLS x (Pi.single l 1) (fun l => W i l * finalWeights q N conv l) fun j => C i j l) ∧ tr = ∑ i ∈ S, ∑ j, x i j * C i j i ∧
    v = -2 * (∑ l, (textbook F).logProb (y l) (q.mu (N + 1) l)) + 2 * tr + 2 * tr * (tr + 1) / (n - tr - 1)

/-- The locations whose part of the trace is counted: all in serial mode, those that thread 0 runs in parallel mode. -/
noncomputable def counted : Exec n → Finset (Fin n)
  | .serial => Finset.univ
  | .omp evs => Finset.univ.filter fun i => ∃ t, OmpEv.finish t i ∈ evs ∧ t.val = 0

/-- The value of the chosen criterion when its loop is run as `ex` says. -/
def IsScoreIn (ex : Exec n) (crit : GgwrCriterionType) (F : Family) (tol : ℝ) (m : ℕ) (x : Matrix (Fin n) (Fin k) ℝ) (y : Fin n → ℝ)
    (W : Fin n → Fin n → ℝ) (v : ℝ) : Prop :=
  match crit with
  | .AIC => IsAICScoreOver (counted ex) F tol m x y W v
  | .CV => IsCVScore F tol m x y W v

/-- Evaluation `j` of the search called the criterion for the `j`-th time. -/
theorem evals_index (bw : BandwidthWeight) (l u : ℝ) (o : Oracle) (m : List (ℝ × ℝ)) (j : ℕ) (e : Eval)
    (h : (optimize bw l u o m).evals[j]? = some e) : o j { bw with mBandwidth := e.x } = (e.success, e.f) := by
  have h0 : ∀ j e, (goldenInit bw l u o m).evals[j]? = some e → o j { bw with mBandwidth := e.x } = (e.success, e.f) := by
    intro j e he
    simp only [goldenInit] at he
    rcases j with - | - | j
    · cases he; rfl
    · cases he; rfl
    · simp at he
  have key := (goldenLoop_induct (bw := bw) (o := o)
    (P := fun s => ∀ j e, s.evals[j]? = some e → o j { bw with mBandwidth := e.x } = (e.success, e.f))
    (fun s h _ => by
      unfold goldenStep
      dsimp only
      split <;>
      · intro j e he
        rw [List.getElem?_append] at he
        by_cases hj : j < s.evals.length
        · rw [if_pos hj] at he; exact h j e he
        · rw [if_neg hj] at he
          have : j - s.evals.length = 0 := by
            by_contra hne
            obtain ⟨t, ht⟩ := Nat.exists_eq_succ_of_ne_zero hne
            rw [ht] at he; simp at he
          have hj' : j = s.evals.length := by omega
          subst hj'
          rw [Nat.sub_self] at he
          cases he
          rfl) (s := goldenStart bw l u o m) h0).1
  rcases optimize_cases bw l u o m with ⟨-, he⟩ | ⟨-, -, -, -, he⟩ | ⟨-, -, -, -, -, he⟩ | ⟨-, -, -, -, he⟩ <;> rw [he] at h
  · exact h0 j e h
  · exact h0 j e h
  · exact key j e h
  · exact key j e h

theorem cv_of_omp {F : Family} {tol : ℝ} {m : ℕ} {x : Matrix (Fin n) (Fin k) ℝ} {y : Fin n → ℝ} {W : Fin n → Fin n → ℝ} {T : ℕ}
    {evs : List (OmpEv (Fin n) (Fin T))} (hs : Schedule (List.finRange n) evs) {v : ℝ} (h : ggwrCVOmp F tol m x y W evs = .ok v) :
    ggwrCVSerial F tol m x y W = .ok v := by
  by_cases hc : ∃ v', ggwrCVSerial F tol m x y W = .ok v'
  · obtain ⟨v', hv'⟩ := hc
    rw [hv', ← Res.ok.inj (h.symm.trans (C90_parallel_cv F tol m x y W evs hs v' hv'))]
  · exfalso
    unfold ggwrCVOmp at h
    obtain ⟨c, hc', h⟩ := Res.bind_eq_ok'.1 h
    simp only at h
    by_cases hsucc : (ompRun (ggwrCVLoc F x y W c.1) (fun (_ : Fin T) i r (cv : Fin n → ℝ) => Function.update cv i r) (fun _ => false) evs
        (0 : Fin n → ℝ)).success = true
    · apply hc
      have hall : ∀ i, ∃ r, ggwrCVLoc F x y W c.1 i = .ok r := by
        by_contra hne
        push Not at hne
        obtain ⟨i, hi⟩ := hne
        rw [omp_fail (fun _ => rfl) _ (List.nodup_finRange n) hs i (List.mem_finRange i) hi] at hsucc
        cases hsucc
      choose r hr using hall
      unfold ggwrCVSerial
      rw [hc', Res.bind, serialFor_ok r _ 0 _ (fun _ _ => rfl) fun i _ => hr i]
      exact ⟨_, rfl⟩
    · rw [if_neg hsucc] at h; cases h

/-- The parts of the trace that thread 0 adds up. -/
theorem counted_sum {T : ℕ} {evs : List (OmpEv (Fin n) (Fin (T + 1)))} (hs : Schedule (List.finRange n) evs) (lev : Fin n → ℝ) :
    (((finishes evs).filter fun ti => ti.1 = 0).map fun ti => lev ti.2).sum = ∑ i ∈ counted (.omp evs), lev i := by
  have hnd : (((finishes evs).filter fun ti => ti.1 = 0).map Prod.snd).Nodup :=
    (hs.finishes.nodup_iff.2 (List.nodup_finRange n)).sublist (List.Sublist.map _ List.filter_sublist)
  have e : (((finishes evs).filter fun ti => ti.1 = 0).map fun ti => lev ti.2) = ((((finishes evs).filter fun ti => ti.1 = 0).map Prod.snd).map lev) := by
    rw [List.map_map]; rfl
  rw [e, ← List.sum_toFinset _ hnd]
  refine Finset.sum_congr ?_ fun _ _ => rfl
  ext i
  simp only [List.mem_toFinset, List.mem_map, List.mem_filter, counted, Finset.mem_filter, Finset.mem_univ, true_and]
  constructor
  · rintro ⟨⟨t, j⟩, ⟨h1, h2⟩, rfl⟩
    exact ⟨t, mem_finishes.1 h1, by simpa using h2⟩
  · rintro ⟨t, h1, h2⟩
    exact ⟨(t, i), ⟨mem_finishes.2 h1, by simpa using Fin.ext h2⟩, rfl⟩

theorem aic_over {F : Family} {tol : ℝ} {m : ℕ} (hm : 0 < m) {x : Matrix (Fin n) (Fin k) ℝ} {y : Fin n → ℝ} {W : Fin n → Fin n → ℝ}
    (hW : ∀ i l, 0 ≤ W i l) {T : ℕ} {evs : List (OmpEv (Fin n) (Fin (T + 1)))} (hs : Schedule (List.finRange n) evs) {v : ℝ}
    (h : ggwrAICOmp F tol m x y W evs = .ok v) : IsAICScoreOver (counted (.omp evs)) F tol m x y W v := by
  have h' := h
  unfold ggwrAICOmp at h
  obtain ⟨c, hc, h⟩ := Res.bind_eq_ok'.1 h
  simp only at h
  by_cases hsucc : (ompRun (ggwrLeverage x W c.1) (fun t _ r (tr : Fin (T + 1) → ℝ) => Function.update tr t (tr t + r)) (fun _ => false) evs
      (0 : Fin (T + 1) → ℝ)).success = true
  · have hall : ∀ i, ∃ r, ggwrLeverage x W c.1 i = .ok r := by
      by_contra hne
      push Not at hne
      obtain ⟨i, hi⟩ := hne
      rw [omp_fail (fun _ => rfl) _ (List.nodup_finRange n) hs i (List.mem_finRange i) hi] at hsucc
      cases hsucc
    choose f hf using hall
    have hv := (C91_parallel_value F tol m x y W (c := c.1) (conv := c.2) hc f hf evs hs).2
    rw [h', counted_sum hs] at hv
    have hB : ∀ i, ∃ lf, localFitInv x c.1.yAdj (fun l => W i l * c.1.wt2 l) (x i) = .ok lf ∧ f i = lf.si i := by
      intro i
      obtain ⟨b, hb, h⟩ := Res.bind_eq_ok'.1 (hf i)
      exact ⟨b, hb, (Res.ok.inj h).symm⟩
    choose lf hl1 hl2 using hB
    obtain ⟨N, q, c1, c2, c3, -, c5, -⟩ := C108_calibration F tol m hm x y _ hW c.1 c.2 hc
    have hp := wtCalc_wt2 (s := c.1) (c := c.2) hc
    refine ⟨N, q, c.2, fun i j l => (lf i).ci j l, ∑ i ∈ counted (.omp evs), f i, c1, fun i l => ?_, ?_, ?_⟩
    · rw [← c3]
      exact (gwPredict_ok (fun l => mul_nonneg (hW i l) (hp l).le) (localFitInv_ci (hl1 i) l)).1
    · exact Finset.sum_congr rfl fun i _ => by rw [hl2, localFitInv_row (hl1 i)]
    · unfold ggwrAICc at hv
      obtain ⟨z, hz, hv⟩ := Res.bind_eq_ok'.1 hv.symm
      rw [← Res.ok.inj hv, fdiv_ok hz, c5]
  · rw [if_neg hsucc] at h; cases h

/-- **C108 (criterion).** Planar or geographic coordinates, any kernel and kind of bandwidth, any way of running the loops: a value of the criterion is the
leave-one-out score of the kernel weights, or their corrected information criterion; parallelised, the latter counts only the leverages of the locations run by
thread 0. -/
theorem C108_criterion (F : Family) (tol : ℝ) (m : ℕ) (hm : 0 < m) (crit : GgwrCriterionType) (ex : Exec n) (hex : ex.Valid) (geo : Bool)
    (b : BandwidthWeight) (coords : DynMat) (hc : FitsData coords n) (dist w : Fin n → Fin n → ℝ) (hd : IsMapDistance geo coords coords dist)
    (hb : UsableRadius b dist) (hw : IsKernelWeight b dist w) (x : Matrix (Fin n) (Fin k) ℝ) (y : Fin n → ℝ) (v : ℝ)
    (h : ggwrCriterionEx F tol m crit ⟨geo, some (coords, coords)⟩ x y b ex = .ok v) : IsScoreIn ex crit F tol m x y w v := by
  obtain ⟨W, h1, h2, h3⟩ := kernelRows hc.2 hc.2 hd hb id
  obtain rfl := kernelWeight_unique h2 hw
  rcases ex with - | @⟨- | T, evs⟩
  · unfold ggwrCriterionEx ggwrCriterion at h
    rw [h1, Res.bind] at h
    cases crit with
    | AIC => exact aic_score hm h3 h
    | CV => exact cv_score hm h3 h
  · cases h
  · cases crit with
    | AIC =>
      obtain ⟨W', hW', h⟩ := Res.bind_eq_ok'.1 (show (weightRows ⟨geo, some (coords, coords)⟩ b n n).bind (fun W => ggwrAICOmp F tol m x y W evs) = .ok v from h)
      cases Res.ok.inj (hW'.symm.trans h1)
      exact aic_over hm h3 hex h
    | CV =>
      obtain ⟨W', hW', h⟩ := Res.bind_eq_ok'.1 (show (weightRows ⟨geo, some (coords, coords)⟩ b n n).bind (fun W => ggwrCVOmp F tol m x y W evs) = .ok v from h)
      cases Res.ok.inj (hW'.symm.trans h1)
      exact cv_score hm h3 (cv_of_omp hex h)

/-- **C108 (fit, every kind of bandwidth).** For planar or geographic coordinates, every kernel and every bandwidth (fixed, or adaptive with an integer or
fractional number of neighbours), in parallel or not: a completed fit reports the coefficients, standard errors and diagnostics of a local scoring
calibration with the kernel weights of the distances between the coordinates. -/
theorem C108_any_fit (F : Family) (tol : ℝ) (m : ℕ) (hm : 0 < m) (ex : Exec n) (hex : ex.Valid) (geo : Bool) (p : Option (DynMat × DynMat))
    (b : BandwidthWeight) (coords : DynMat) (hc : FitsData coords n) (dist w : Fin n → Fin n → ℝ) (hd : IsMapDistance geo coords coords dist)
    (hb : UsableRadius b dist) (hw : IsKernelWeight b dist w) (x : Matrix (Fin n) (Fin k) ℝ) (y : Fin n → ℝ) (r : GgwrResult n k)
    (h : ggwrRun F tol m ⟨geo, p⟩ b coords x y ex = .ok r) : ∃ N q C, IsGeneralisedFit F tol m x y w r N q C := by
  unfold ggwrRun at h
  obtain ⟨d', hd', h⟩ := Res.bind_eq_ok'.1 h
  obtain ⟨-, -, rfl⟩ := bindLocations_eq_ok.1 hd'
  obtain ⟨W, hW, h⟩ := Res.bind_eq_ok'.1 h
  obtain ⟨W', h1, h2, h3⟩ := kernelRows hc.2 hc.2 hd hb id
  cases Res.ok.inj (hW.symm.trans h1)
  obtain rfl := kernelWeight_unique h2 hw
  exact ggwrFit_explicit hm h3 hex h

/-- **C108 (bandwidth choice, every kind and mode).** With automatic selection, for planar or geographic coordinates and however the loops are run: kernel and
kind of the bandwidth are the configured ones; the reported bandwidth has the smallest value of all bandwidths tried; the value of the `j`-th of them is the
criterion as `C108_criterion` says, if the bandwidth makes sense for the distances; and for a reported bandwidth that does, the results are those of the fit
with it. -/
theorem C108_any_choice (F : Family) (tol : ℝ) (m : ℕ) (hm : 0 < m) (crit : GgwrCriterionType) (sched : ℕ → Exec n) (hs : ∀ j, (sched j).Valid)
    (ex : Exec n) (hex : ex.Valid) (geo : Bool) (p : Option (DynMat × DynMat)) (b0 b : BandwidthWeight) (coords : DynMat) (hc : FitsData coords n)
    (dist : Fin n → Fin n → ℝ) (hd : IsMapDistance geo coords coords dist) (x : Matrix (Fin n) (Fin k) ℝ) (y : Fin n → ℝ) (r : GgwrResult n k)
    (h : ggwrAutoRunEx F tol m crit ⟨geo, p⟩ b0 coords x y sched ex = .ok (b, r)) :
    b.mKernel = b0.mKernel ∧ b.mAdaptive = b0.mAdaptive ∧
    (∃ tried : List (ℝ × ℝ), 2 ≤ tried.length ∧ (∃ v, (b.mBandwidth, v) ∈ tried ∧ ∀ q ∈ tried, v ≤ q.2) ∧
      ∀ j q, tried[j]? = some q → UsableRadius { b0 with mBandwidth := q.1 } dist → ∀ w, IsKernelWeight { b0 with mBandwidth := q.1 } dist w →
        IsScoreIn (sched j) crit F tol m x y w q.2) ∧
    (UsableRadius b dist → ∀ w, IsKernelWeight b dist w → ∃ N q C, IsGeneralisedFit F tol m x y w r N q C) := by
  unfold ggwrAutoRunEx at h
  obtain ⟨d', hd', h⟩ := Res.bind_eq_ok'.1 h
  obtain ⟨-, -, rfl⟩ := bindLocations_eq_ok.1 hd'
  obtain ⟨sr, hsr, h⟩ := Res.bind_eq_ok'.1 h
  obtain ⟨b', hb', h⟩ := Res.bind_eq_ok'.1 h
  obtain ⟨W, hW, h⟩ := Res.bind_eq_ok'.1 h
  obtain ⟨f, hf, h⟩ := Res.bind_eq_ok'.1 h
  obtain ⟨rfl, rfl⟩ := Prod.mk.inj (Res.ok.inj h)
  unfold ggwrSelectBandwidthEx at hsr
  obtain ⟨u, -, hsr⟩ := Res.bind_eq_ok'.1 hsr
  simp only at hsr
  by_cases hall : ∀ j e, (optimize b0 (if b0.mAdaptive then 20 else 0) u
      (fun j b => (true, ggwrScoreEx F tol m crit ⟨geo, some (coords, coords)⟩ x y b (sched j))) []).evals[j]? = some e →
      ∃ v, ggwrCriterionEx F tol m crit ⟨geo, some (coords, coords)⟩ x y { b0 with mBandwidth := e.x } (sched j) = .ok v
  · rw [if_pos hall] at hsr
    cases Res.ok.inj hsr
    have hk := optimize_kind _ _ _ _ _ hb'
    have hidx := evals_index b0 (if b0.mAdaptive then 20 else 0) u
      (fun j b => (true, ggwrScoreEx F tol m crit ⟨geo, some (coords, coords)⟩ x y b (sched j))) []
    refine ⟨by rw [hk], by rw [hk], ⟨(optimize b0 (if b0.mAdaptive then 20 else 0) u
      (fun j b => (true, ggwrScoreEx F tol m crit ⟨geo, some (coords, coords)⟩ x y b (sched j))) []).evals.map fun e => (e.x, e.f), ?_, ?_, ?_⟩, ?_⟩
    · rw [List.length_map]; exact (C16_call_bound _ _ _ _ _).1
    · obtain ⟨e, he, hx, hmin⟩ := C14_returns_best_evaluated _ _ _ _ _ _ hb' fun e he => by
        obtain ⟨j, hj⟩ := List.mem_iff_getElem?.1 he
        exact ((Prod.ext_iff.1 (hidx j e hj)).1).symm
      refine ⟨e.f, List.mem_map.2 ⟨e, he, by rw [hx]⟩, fun q hq => ?_⟩
      obtain ⟨e', he', rfl⟩ := List.mem_map.1 hq
      exact hmin e' he'
    · intro j q hq hu w hw
      rw [List.getElem?_map] at hq
      obtain ⟨e, he, rfl⟩ := Option.map_eq_some_iff.1 hq
      obtain ⟨v, hv⟩ := hall j e he
      have hfe := (Prod.ext_iff.1 (hidx j e he)).2
      simp only [ggwrScoreEx, hv] at hfe
      show IsScoreIn (sched j) crit F tol m x y w e.f
      rw [← hfe]
      exact C108_criterion F tol m hm crit (sched j) (hs j) geo _ coords hc dist w hd hu hw x y v hv
    · intro hu w hw
      obtain ⟨W', h1, h2, h3⟩ := kernelRows hc.2 hc.2 hd hu id
      cases Res.ok.inj (hW.symm.trans h1)
      obtain rfl := kernelWeight_unique h2 hw
      exact ggwrFit_explicit hm h3 hex hf
  · rw [if_neg hall] at hsr; cases hsr

/-! ## A run with automatic selection: two pairs of observations, each pair at one place -/

/-- Observations 0 and 1 at the origin, 2 and 3 one unit away. -/
def twinCoords : DynMat := ⟨4, 2, fun i k => if k = 0 ∧ 2 ≤ i then 1 else 0⟩

/-- 1 within a pair. -/
def twinW (i l : Fin 4) : ℝ := if (i.val < 2 ↔ l.val < 2) then 1 else 0

theorem twin_plane (i l : Fin 4) : plane (twinCoords.val i) (twinCoords.val l) = if (i.val < 2 ↔ l.val < 2) then 0 else 1 := by
  fin_cases i <;> fin_cases l <;> simp [plane, twinCoords]

theorem twin_weights {bw : ℝ} (h0 : 0 < bw) (h1 : bw < 1) :
    weightRows ⟨false, some (twinCoords, twinCoords)⟩ ⟨bw, false, .Boxcar⟩ 4 4 = .ok twinW := by
  refine (weights_fixed h0).2 fun i => ⟨i.isLt, rfl, funext fun j => ?_⟩
  rw [twin_plane]
  unfold twinW kernelFormula
  by_cases h : i.val < 2 ↔ j.val < 2
  · rw [if_pos h, if_pos h]; exact (if_pos h0).symm
  · rw [if_neg h, if_neg h]; exact (if_neg (not_lt.2 h1.le)).symm

theorem twinW_nonneg (i l : Fin 4) : 0 ≤ twinW i l := by unfold twinW; split <;> norm_num

theorem twin_max : (⟨false, some (twinCoords, twinCoords)⟩ : CRSDistance).maxDistance = .ok 1 := by
  obtain ⟨M, _, hM, -, h1, ⟨i, l, hl, hm⟩, -⟩ := C08_max_min_sharp twinCoords twinCoords (by decide) (by decide) fun i hi j hj => by
    rw [euclid_eq_plane, twin_plane ⟨i, hi⟩ ⟨j, hj⟩]
    have := hundred_lt_dblMax
    split <;> linarith
  rw [hM]
  congr 1
  apply le_antisymm
  · simp only [CRSDistance.distance] at hl
    by_cases hi : i < twinCoords.nRows
    · rw [if_pos hi, crsDistRow_planar] at hl
      rw [← Res.ok.inj hl, List.mem_map] at hm
      obtain ⟨j, hj, e⟩ := hm
      rw [euclid_eq_plane, twin_plane ⟨i, hi⟩ ⟨j, List.mem_range.1 hj⟩] at e
      rw [← e]; split <;> norm_num
    · rw [if_neg hi] at hl; cases hl
  · have := (h1 0 _ (by simp only [CRSDistance.distance]; rw [if_pos (by decide), crsDistRow_planar]) (euclid (twinCoords.val 0)
      (twinCoords.val 2)) (List.mem_map.2 ⟨2, by simp [twinCoords], rfl⟩)).2
    rw [euclid_eq_plane] at this
    have h2 := twin_plane (0 : Fin 4) (2 : Fin 4)
    rw [if_neg (by decide)] at h2
    exact (show (1 : ℝ) = _ from h2.symm).le.trans this

/-- Counts. -/
def twinY : Fin 4 → ℝ := ![0, 1, 2, 1]

theorem twin_cv_ok (tol : ℝ) : ∃ v, ggwrCVSerial .Poisson tol 1 (ones 4) twinY twinW = .ok v := by
  have hcv : ∀ i l, 0 ≤ cvWeight twinW i l := fun i l => by
    rw [cvWeight_fixed twinW i rfl]; simp only; split
    · exact le_rfl
    · exact twinW_nonneg i l
  have hpos : ∀ i, ∃ l, 0 < cvWeight twinW i l := fun i => by
    rw [cvWeight_fixed twinW i rfl]
    refine ⟨![1, 0, 3, 2] i, ?_⟩
    fin_cases i <;> simp [twinW]
  have hy : ∀ i : Fin 4, (0 : ℝ) ≤ twinY i := fun i => by fin_cases i <;> norm_num [twinY]
  obtain ⟨c, conv, hc⟩ := C92_calibration_completes (F := .Poisson) tol 1 (x := ones 4) (y := twinY) (W := cvWeight twinW) hy hcv
    fun i => ones_det (hcv i) (hpos i)
  have hp := wtCalc_wt2 hc
  have hloc : ∀ i, ∃ r, ggwrCVLoc .Poisson (ones 4) twinY twinW c i = .ok r := fun i => by
    unfold ggwrCVLoc
    rw [ones_predict (fun l => mul_nonneg (hcv i l) (hp l).le) (by obtain ⟨l, hl⟩ := hpos i; exact ⟨l, mul_pos hl (hp l)⟩)]
    exact ⟨_, rfl⟩
  choose r hr using hloc
  unfold ggwrCVSerial
  rw [hc, Res.bind, serialFor_ok r _ 0 _ (fun _ _ => rfl) fun i _ => hr i]
  exact ⟨_, rfl⟩

theorem twin_cv_small {tol v : ℝ} (h : IsCVScore .Poisson tol 1 (ones 4) twinY twinW v) : v < dblMax := by
  obtain ⟨N, q, conv, B, ⟨hN, hst, -, hit, -⟩, hB, hv⟩ := h
  have hN0 : N = 0 := by omega
  subst hN0
  have hst := hst rfl
  have hvp : ∀ l, 0 < finalWeights q 0 conv l := fun l => by
    unfold finalWeights
    split
    · rw [(hst l).2.2]; exact one_pos
    · rw [(hit 0 one_pos).2.2.2 l, (hit 0 one_pos).2.2.1 l]; exact Real.exp_pos _
  have hwork : ∀ l, Real.exp (q.work (textbook .Poisson) twinY 0 l) ≤ twinY l + 1 / 10 := fun l => by
    have hy : 0 < twinY l + 1 / 10 := by fin_cases l <;> norm_num [twinY]
    unfold Sequence.work
    rw [(hst l).1, (hst l).2.1, Real.exp_add, Real.exp_log hy]
    refine mul_le_of_le_one_right hy.le (Real.exp_le_one_iff.2 ?_)
    exact div_nonpos_of_nonpos_of_nonneg (by linarith) hy.le
  have hb : ∀ i, B i 0 = q.work (textbook .Poisson) twinY 0 (![1, 0, 3, 2] i) := fun i => by
    have hw0 : ∀ l, 0 ≤ (if l = i then 0 else twinW i l) * finalWeights q 0 conv l := fun l => by
      refine mul_nonneg ?_ (hvp l).le
      split
      · exact le_rfl
      · exact twinW_nonneg i l
    have hw1 : ∃ l, 0 < (if l = i then 0 else twinW i l) * finalWeights q 0 conv l :=
      ⟨![1, 0, 3, 2] i, mul_pos (by fin_cases i <;> simp [twinW]) (hvp _)⟩
    have h1 := wls_unique (hB i) (gwPredict_ok hw0 (ones_predict hw0 hw1 _)).1
    rw [h1]
    have hne := fun l => (hvp l).ne'
    simp only [Fin.sum_univ_four]
    fin_cases i <;> simp [twinW, hne]
  have hres : ∀ i, (twinY i - (textbook .Poisson).mean (∑ j, ones 4 i j * B i j)) ^ 2 ≤ 9 := fun i => by
    have e : ∑ j, ones 4 i j * B i j = q.work (textbook .Poisson) twinY 0 (![1, 0, 3, 2] i) := by
      rw [← hb i]; simp [ones]
    rw [e]
    have h1 := hwork (![1, 0, 3, 2] i)
    have h2 := Real.exp_pos (q.work (textbook .Poisson) twinY 0 (![1, 0, 3, 2] i))
    change (twinY i - Real.exp _) ^ 2 ≤ 9
    have hy : ∀ l : Fin 4, 0 ≤ twinY l ∧ twinY l ≤ 2 := fun l => by fin_cases l <;> norm_num [twinY]
    have h3 := hy i
    have h4 := hy (![1, 0, 3, 2] i)
    nlinarith
  rw [hv]
  refine (min_le_left _ _).trans_lt ((Finset.sum_le_sum fun i _ => hres i).trans_lt ?_)
  have := hundred_lt_dblMax
  simp
  linarith

/-- The run succeeds, however the loops are run. -/
theorem ex_ggwrAuto (tol : ℝ) (sched : ℕ → Exec 4) (hs : ∀ j, (sched j).Valid) (hT : ∀ j (evs : List (OmpEv (Fin 4) (Fin 0))), sched j ≠ .omp evs) (ex : Exec 4)
    (hex : ex.Valid) : ∃ b r, ggwrAutoRunEx .Poisson tol 1 .CV ⟨false, none⟩ ⟨1, false, .Boxcar⟩ twinCoords (ones 4) twinY sched ex = .ok (b, r) := by
  obtain ⟨v, hv⟩ := twin_cv_ok tol
  have hsm := twin_cv_small (cv_score one_pos twinW_nonneg hv)
  have hcr : ∀ j bw, 0 < bw → bw < 1 →
      ggwrCriterionEx .Poisson tol 1 .CV ⟨false, some (twinCoords, twinCoords)⟩ (ones 4) twinY ⟨bw, false, .Boxcar⟩ (sched j) = .ok v := by
    intro j bw h0 h1
    have hj := hs j
    have hTj := hT j
    generalize sched j = e at hj hTj
    rcases e with - | @⟨- | T, evs⟩
    · unfold ggwrCriterionEx ggwrCriterion
      rw [twin_weights h0 h1, Res.bind]
      exact hv
    · exact absurd rfl (hTj evs)
    · change (weightRows ⟨false, some (twinCoords, twinCoords)⟩ ⟨bw, false, .Boxcar⟩ 4 4).bind (fun W => ggwrCVOmp .Poisson tol 1 (ones 4) twinY W evs) = _
      rw [twin_weights h0 h1, Res.bind]
      exact C90_parallel_cv _ _ _ _ _ _ _ hj _ hv
  obtain ⟨g1, g2⟩ := goldenR_bounds
  have p1 : 0 < 0 + goldenR * (1 - 0) ∧ 0 + goldenR * (1 - 0) < 1 := by constructor <;> linarith
  have p2 : 0 < 1 - goldenR * (1 - 0) ∧ 1 - goldenR * (1 - 0) < 1 := by constructor <;> linarith
  set o : Oracle := fun j b => (true, ggwrScoreEx .Poisson tol 1 .CV ⟨false, some (twinCoords, twinCoords)⟩ (ones 4) twinY b (sched j)) with ho
  have hval : ∀ j bw, 0 < bw → bw < 1 → o j ⟨bw, false, .Boxcar⟩ = (true, v) := fun j bw h0 h1 => by
    simp only [ho, ggwrScoreEx, hcr j bw h0 h1]
  obtain ⟨b, hout⟩ : ∃ b, (optimize ⟨1, false, .Boxcar⟩ 0 1 o []).out = .ok b := by
    rcases optimize_cases ⟨1, false, .Boxcar⟩ 0 1 o [] with ⟨-, he⟩ | ⟨-, -, hf, -, he⟩ | ⟨-, -, -, -, -, he⟩ | ⟨-, -, -, -, he⟩
    · exact ⟨_, by rw [he]⟩
    · have : (goldenInit ⟨1, false, .Boxcar⟩ 0 1 o []).f1 = v := by
        have := hval 0 _ p1.1 p1.2
        simp only [goldenInit, Bool.false_eq_true, if_false]
        rw [this]
      rw [this] at hf
      linarith
    · exact ⟨_, by rw [he]⟩
    · exact ⟨_, by rw [he]⟩
  have hstop := golden_stops ⟨1, false, .Boxcar⟩ 0 1 o rfl (fun hcon => by
      have h2 := hcon.2
      simp only at h2
      rw [hval 1 _ p2.1 p2.2, hval 0 _ p1.1 p1.2] at h2
      norm_num at h2) b (fun _ _ => rfl) hout
  have hb : b = ⟨b.mBandwidth, false, .Boxcar⟩ := optimize_kind _ _ _ _ _ hout
  have hb0 : 0 < b.mBandwidth ∧ b.mBandwidth < 1 := by
    rcases hstop.2 with h | h <;> rw [h]
    · exact p1
    · exact p2
  have hW : weightRows ⟨false, some (twinCoords, twinCoords)⟩ b 4 4 = .ok twinW := by rw [hb]; exact twin_weights hb0.1 hb0.2
  have hpos : ∀ i, ∃ l, 0 < twinW i l := fun i => ⟨i, by simp [twinW]⟩
  have hy : ∀ i : Fin 4, (0 : ℝ) ≤ twinY i := fun i => by fin_cases i <;> norm_num [twinY]
  obtain ⟨c, conv, hc⟩ := C92_calibration_completes (F := .Poisson) tol 1 (x := ones 4) (y := twinY) (W := twinW) hy twinW_nonneg
    fun i => ones_det (twinW_nonneg i) (hpos i)
  have hp := wtCalc_wt2 hc
  choose lf e1 e2 e3 using fun i => ones_leverage (W := twinW) (st := c) twinW_nonneg hp i (hpos i)
  have htr : ∑ i, (lf i).si i ≠ (4 : ℕ) - 1 := by
    have h01 := add_pos (hp 0) (hp 1)
    have h23 := add_pos (hp 2) (hp 3)
    have : ∑ i, (lf i).si i = 2 := by
      simp only [e2, Fin.sum_univ_four]
      simp [twinW]
      field_simp
      ring
    rw [this]; norm_num
  obtain ⟨r, hr, -⟩ := ggwrFit_poisson_total one_pos hex hy ⟨0, 1, by norm_num [twinY]⟩ (ones_det (fun _ => zero_le_one) ⟨0, one_pos⟩)
    (by norm_num) (by norm_num) hc lf e1 htr
  refine ⟨b, r, ?_⟩
  unfold ggwrAutoRunEx
  have hsr : ggwrSelectBandwidthEx .Poisson tol 1 .CV ⟨false, some (twinCoords, twinCoords)⟩ ⟨1, false, .Boxcar⟩ (ones 4) twinY sched =
      .ok (optimize ⟨1, false, .Boxcar⟩ 0 1 o []) := by
    unfold ggwrSelectBandwidthEx
    simp only [Bool.false_eq_true, if_false, twin_max, Res.bind]
    rw [if_pos]
    intro j e he
    have hx : e.x ∈ (optimize ⟨1, false, .Boxcar⟩ 0 1 o []).evals.map Eval.x := List.mem_map.2 ⟨e, List.mem_of_getElem? he, rfl⟩
    rw [hstop.1] at hx
    rcases List.mem_pair.1 hx with h | h <;> rw [h]
    · exact ⟨v, hcr j _ p1.1 p1.2⟩
    · exact ⟨v, hcr j _ p2.1 p2.2⟩
  rw [bindLocations_eq_ok.2 ⟨rfl, rfl, rfl⟩]
  simp only [Res.bind, hsr, hout, hW, hr]

end Verif.Props

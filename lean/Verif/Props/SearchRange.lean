import Verif.Spec.SearchRange
import Verif.Props.GpuRun
import Verif.Props.GTWRRunGeneral
import Verif.Props.RobustRunGeneral
import Verif.Props.GGWRRunGeneral
import Verif.Props.GWRRidgeRun
import Verif.Props.GWRMultiscaleRun

/-!
# C127: the range in which the bandwidth is searched
-/

namespace Verif.Props
open Verif Verif.Model Verif.Spec Matrix Classical

variable {n k : ℕ}

theorem evals_prefix (bw : BandwidthWeight) (l u : ℝ) (o : Oracle) (m : List (ℝ × ℝ)) :
    ∃ rest, (optimize bw l u o m).evals = (goldenInit bw l u o m).evals ++ rest := by
  have key := (goldenLoop_induct (bw := bw) (o := o) (P := fun s => ∃ rest, s.evals = (goldenInit bw l u o m).evals ++ rest)
    (fun s h _ => by
      obtain ⟨rest, h⟩ := h
      unfold goldenStep
      dsimp only
      split
      · exact ⟨rest ++ [_], by rw [h, List.append_assoc]⟩
      · exact ⟨rest ++ [_], by rw [h, List.append_assoc]⟩) (s := goldenStart bw l u o m) ⟨[], (List.append_nil _).symm⟩).1
  rcases optimize_cases bw l u o m with ⟨-, he'⟩ | ⟨-, -, -, -, he'⟩ | ⟨-, -, -, -, -, he'⟩ | ⟨-, -, -, -, he'⟩ <;> rw [he']
  · exact ⟨[], (List.append_nil _).symm⟩
  · exact ⟨[], (List.append_nil _).symm⟩
  · exact key
  · exact key

theorem roundC_near (x : ℝ) : |roundC x - x| ≤ 1 / 2 ∧ ∃ z : ℤ, roundC x = z := by
  unfold roundC
  split
  · have h1 := Int.floor_le (x + 1 / 2)
    have h2 := Int.lt_floor_add_one (x + 1 / 2)
    exact ⟨abs_le.2 ⟨by linarith, by linarith⟩, _, rfl⟩
  · have h1 := Int.floor_le (-x + 1 / 2)
    have h2 := Int.lt_floor_add_one (-x + 1 / 2)
    exact ⟨abs_le.2 ⟨by linarith, by linarith⟩, -⌊-x + 1 / 2⌋, by push_cast; rfl⟩

/-- **C127 (search).** Whatever the criterion, the search between `l` and `u` starts by dividing this range by the golden section. -/
theorem C127_search_starts (bw : BandwidthWeight) (l u : ℝ) (o : Oracle) (m : List (ℝ × ℝ)) :
    StartsInRange bw.mAdaptive l u ((optimize bw l u o m).evals.map Eval.x) := by
  obtain ⟨rest, h⟩ := evals_prefix bw l u o m
  refine ⟨_, _, rest.map Eval.x, by rw [h]; simp only [goldenInit, List.cons_append, List.nil_append, List.map_cons]; rfl, ?_⟩
  dsimp only
  cases hb : bw.mAdaptive with
  | true =>
    simp only [if_true]
    exact ⟨rfl, roundC_near _⟩
  | false =>
    simp only [Bool.false_eq_true, if_false]
    exact ⟨rfl, rfl⟩

theorem maxLoop_greatest {row : ℕ → Res (List ℝ)} {dist : Fin n → Fin n → ℝ} (hrow : ∀ i : Fin n, row i = .ok (List.ofFn (dist i)))
    (h0 : ∀ i, dist i i = 0) (hn : 0 < n) {u : ℝ} (h : maxLoop row (List.range n) 0 = .ok u) :
    IsGreatest (Set.range fun p : Fin n × Fin n => dist p.1 p.2) u := by
  obtain ⟨-, h2, h3⟩ := maxLoop_spec h
  constructor
  · rcases h3 with rfl | ⟨i, hi, l, hl, hm⟩
    · exact ⟨(⟨0, hn⟩, ⟨0, hn⟩), h0 _⟩
    · have hi' := List.mem_range.1 hi
      have := hrow ⟨i, hi'⟩
      cases Res.ok.inj (hl.symm.trans this)
      obtain ⟨j, hj⟩ := List.mem_ofFn.1 hm
      exact ⟨(⟨i, hi'⟩, j), hj⟩
  · rintro _ ⟨⟨i, j⟩, rfl⟩
    obtain ⟨l, hl, -, hle⟩ := h2 i (List.mem_range.2 i.isLt)
    cases Res.ok.inj (hl.symm.trans (hrow i))
    exact hle _ (List.mem_ofFn.2 ⟨j, rfl⟩)

theorem map_diag {geo : Bool} {coords : DynMat} {dist : Fin n → Fin n → ℝ} (h : IsMapDistance geo coords coords dist) (i : Fin n) : dist i i = 0 := by
  cases geo with
  | false =>
    have := h i i
    rw [this]; simp [plane]
  | true =>
    have h1 : spGcdist _ _ _ _ = .ok (dist i i) := h i i
    have he : (0 : ℝ) < doubleEps := by norm_num [doubleEps]
    rw [spGcdist_shortcut (by simp [gcShortcut, he])] at h1
    exact (Res.ok.inj h1).symm

theorem map_rows {geo : Bool} {coords : DynMat} (hc : FitsData coords n) {dist : Fin n → Fin n → ℝ} (h : IsMapDistance geo coords coords dist)
    (i : Fin n) : crsDistRow geo coords coords i = .ok (List.ofFn (dist i)) := by
  rw [mapDistance_calc] at h
  unfold crsDistRow
  rw [mapRes_eq_ok, List.forall₂_iff_get]
  refine ⟨by simp [hc.2], fun j h1 h2 => ?_⟩
  have hj : j < n := by simpa using h2
  simpa using h i ⟨j, hj⟩

theorem map_max {geo : Bool} {coords : DynMat} (hc : FitsData coords n) (hn : 0 < n) {dist : Fin n → Fin n → ℝ}
    (h : IsMapDistance geo coords coords dist) {u : ℝ} (hu : CRSDistance.maxDistance ⟨geo, some (coords, coords)⟩ = .ok u) :
    IsGreatest (Set.range fun p : Fin n × Fin n => dist p.1 p.2) u := by
  unfold CRSDistance.maxDistance at hu
  simp only [hc.2] at hu
  exact maxLoop_greatest (map_rows hc h) (map_diag h) hn hu

theorem default_range {geo : Bool} {coords : DynMat} (hc : FitsData coords n) (hn : 0 < n) {dist : Fin n → Fin n → ℝ}
    (h : IsMapDistance geo coords coords dist) {a : Bool} {u : ℝ}
    (hu : (if a then Res.ok (n : ℝ) else CRSDistance.maxDistance ⟨geo, some (coords, coords)⟩) = .ok u) :
    DefaultRange a dist (if a then 20 else 0) u := by
  unfold DefaultRange
  cases a with
  | true => simp only [if_true] at hu ⊢; exact ⟨trivial, (Res.ok.inj hu).symm⟩
  | false => simp only [Bool.false_eq_true, if_false] at hu ⊢; exact ⟨trivial, map_max hc hn h hu⟩

theorem greatest_exists (hn : 0 < n) (dist : Fin n → Fin n → ℝ) : ∃ u, IsGreatest (Set.range fun p : Fin n × Fin n => dist p.1 p.2) u := by
  haveI : Nonempty (Fin n × Fin n) := ⟨(⟨0, hn⟩, ⟨0, hn⟩)⟩
  obtain ⟨p, hp⟩ := Finite.exists_max fun p : Fin n × Fin n => dist p.1 p.2
  exact ⟨_, ⟨p, rfl⟩, by rintro _ ⟨q, rfl⟩; exact hp q⟩

theorem range_of_bounds {geo : Bool} {coords : DynMat} (hc : FitsData coords n) (hn : 0 < n) {dist : Fin n → Fin n → ℝ}
    (h : IsMapDistance geo coords coords dist) {a : Bool} {upper : Option ℝ} {u : ℝ}
    (hu : (match upper with
      | some v => Res.ok v
      | none => if a then Res.ok (n : ℝ) else CRSDistance.maxDistance ⟨geo, some (coords, coords)⟩) = .ok u) :
    ∃ u0, DefaultRange a dist (if a then 20 else 0) u0 ∧ u = upper.getD u0 := by
  cases upper with
  | none => exact ⟨u, default_range hc hn h hu, rfl⟩
  | some v =>
    obtain ⟨M, hM⟩ := greatest_exists hn dist
    refine ⟨if a then n else M, ?_, (Res.ok.inj hu).symm⟩
    unfold DefaultRange
    cases a with
    | true => simp only [if_true]; exact ⟨trivial, trivial⟩
    | false => simp only [Bool.false_eq_true, if_false]; exact ⟨trivial, hM⟩

/-- **C127 (basic regression).** The bandwidth search of basic regression runs over the default range, in any mode, for planar or geographic
coordinates; a bound that the user has set replaces the corresponding end of the range. -/
theorem C127_basic_range (c : Crit) (sched : ℕ → Exec n) (geo : Bool) (b0 : BandwidthWeight) (lower upper : Option ℝ) (coords : DynMat)
    (hc : FitsData coords n) (hn : 0 < n) (dist : Fin n → Fin n → ℝ) (hd : IsMapDistance geo coords coords dist) (x : Matrix (Fin n) (Fin k) ℝ)
    (y : Fin n → ℝ) (r : SearchResult) (h : gwrSearchEx c sched ⟨geo, some (coords, coords)⟩ b0 lower upper x y = .ok r) :
    ∃ l u, DefaultRange b0.mAdaptive dist l u ∧ StartsInRange b0.mAdaptive (lower.getD l) (upper.getD u) (r.evals.map Eval.x) := by
  unfold gwrSearchEx gwrUpper at h
  obtain ⟨u, hu, h⟩ := Res.bind_eq_ok'.1 h
  cases Res.ok.inj h
  obtain ⟨u0, h0, rfl⟩ := range_of_bounds hc hn hd hu
  exact ⟨_, u0, h0, C127_search_starts _ _ _ _ _⟩

/-- **C127 (fit of basic regression).** So it does when `fit` selects the bandwidth, alone or after having selected variables. -/
theorem C127_basic_fit (c : Crit) (schedB : ℕ → Exec n) (ex : Exec n) (geo : Bool) (par : Option (DynMat × DynMat)) (b0 : BandwidthWeight)
    (lower upper : Option ℝ) (coords : DynMat) (hc : FitsData coords n) (hn : 0 < n) (dist : Fin n → Fin n → ℝ)
    (hd : IsMapDistance geo coords coords dist) (x : Matrix (Fin n) (Fin k) ℝ) (y : Fin n → ℝ) (sS sC : Bool) :
    (∀ r g, gwrAutoRun c schedB ex ⟨geo, par⟩ b0 lower upper coords x y sS sC = .ok (r, g) →
      ∃ l u, DefaultRange b0.mAdaptive dist l u ∧ StartsInRange b0.mAdaptive (lower.getD l) (upper.getD u) (r.evals.map Eval.x)) ∧
    ∀ (srt : List FModel → List FModel) (thr : ℝ) (sched : List ℕ → Exec n) (hasIntercept : Bool) (s : Selected n) r (g : GWRReport n s.cols.length),
      gwrVarAutoRun srt thr sched c schedB ex ⟨geo, par⟩ b0 lower upper coords x y hasIntercept sS sC = .ok ⟨s, (r, g)⟩ →
      ∃ l u, DefaultRange b0.mAdaptive dist l u ∧ StartsInRange b0.mAdaptive (lower.getD l) (upper.getD u) (r.evals.map Eval.x) := by
  refine ⟨fun r g h => ?_, fun srt thr sched hi s r g h => ?_⟩
  · unfold gwrAutoRun at h
    obtain ⟨d', hb, h⟩ := Res.bind_eq_ok'.1 h
    obtain ⟨-, -, rfl⟩ := bindLocations_eq_ok.1 hb
    obtain ⟨r', hr, h⟩ := Res.bind_eq_ok'.1 h
    obtain ⟨b, -, h⟩ := Res.bind_eq_ok'.1 h
    obtain ⟨g', -, h⟩ := Res.bind_eq_ok'.1 h
    simp only [Res.ok.injEq, Prod.mk.injEq] at h
    obtain ⟨rfl, -⟩ := h
    exact C127_basic_range c schedB geo b0 lower upper coords hc hn dist hd x y _ hr
  · unfold gwrVarAutoRun at h
    obtain ⟨d', hb, h⟩ := Res.bind_eq_ok'.1 h
    obtain ⟨-, -, rfl⟩ := bindLocations_eq_ok.1 hb
    obtain ⟨s', -, h⟩ := Res.bind_eq_ok'.1 h
    obtain ⟨r', hr, h⟩ := Res.bind_eq_ok'.1 h
    obtain ⟨b, -, h⟩ := Res.bind_eq_ok'.1 h
    obtain ⟨g', -, h⟩ := Res.bind_eq_ok'.1 h
    obtain ⟨rfl, e2⟩ := Sigma.mk.inj (Res.ok.inj h)
    cases eq_of_heq e2
    exact C127_basic_range c schedB geo b0 lower upper coords hc hn dist hd s'.x y _ hr

/-- **C102 (bandwidth).** After the selection of variables the bandwidth is one of those tried in a search over the default range, with the ends replaced
by the bounds the user has set. -/
theorem C102_auto_fit_range (srt : List FModel → List FModel) (thr : ℝ) (c : Crit) (geo : Bool) (p : Option (DynMat × DynMat))
    (b0 b : BandwidthWeight) (lower upper : Option ℝ) (coords : DynMat) (hc : FitsData coords n) (hn : 0 < n) (dist : Fin n → Fin n → ℝ)
    (hd : IsMapDistance geo coords coords dist) (x : Matrix (Fin n) (Fin k) ℝ) (y : Fin n → ℝ) (hasIntercept sS sC : Bool) (s : Selected n)
    (a : FitAcc n s.cols.length) (h : gwrVarAutoFit srt thr c ⟨geo, p⟩ b0 lower upper coords x y hasIntercept sS sC = .ok ⟨s, (b, a)⟩) :
    ∃ l u tried, DefaultRange b0.mAdaptive dist l u ∧ StartsInRange b0.mAdaptive (lower.getD l) (upper.getD u) tried ∧ b.mBandwidth ∈ tried := by
  unfold gwrVarAutoFit at h
  obtain ⟨d', -, h⟩ := Res.bind_eq_ok'.1 h
  obtain ⟨s', -, h⟩ := Res.bind_eq_ok'.1 h
  obtain ⟨⟨b', a'⟩, ha, h⟩ := Res.bind_eq_ok'.1 h
  obtain ⟨rfl, e2⟩ := Sigma.mk.inj (Res.ok.inj h)
  cases eq_of_heq e2
  unfold gwrAutoFit at ha
  obtain ⟨d'', hb, ha⟩ := Res.bind_eq_ok'.1 ha
  obtain ⟨-, -, rfl⟩ := bindLocations_eq_ok.1 hb
  obtain ⟨r, hr, ha⟩ := Res.bind_eq_ok'.1 ha
  obtain ⟨b', ho, ha⟩ := Res.bind_eq_ok'.1 ha
  obtain ⟨W, -, ha⟩ := Res.bind_eq_ok'.1 ha
  obtain ⟨q, -, ha⟩ := Res.bind_eq_ok'.1 ha
  have hbb := congrArg Prod.fst (Res.ok.inj ha)
  simp only at hbb
  subst hbb
  unfold gwrSelectBandwidth at hr
  obtain ⟨v, hv, hr⟩ := Res.bind_eq_ok'.1 hr
  cases Res.ok.inj hr
  obtain ⟨u0, h0, rfl⟩ := range_of_bounds hc hn hd hv
  refine ⟨_, u0, _, h0, C127_search_starts _ _ _ (fun _ b => (true, gwrCriterion c ⟨geo, some (coords, coords)⟩ s'.x y b)) [], ?_⟩
  have hev := optimize_evals b0 (lower.getD (if b0.mAdaptive then 20 else 0)) (upper.getD u0)
    (fun b => gwrCriterion c ⟨geo, some (coords, coords)⟩ s'.x y b) []
  obtain ⟨e, he, hx, -⟩ := C14_returns_best_evaluated _ _ _ _ _ _ ho fun e he => (hev e he).1
  exact List.mem_map.2 ⟨e, he, hx⟩

/-- **C127 (initial fit of multiscale regression).** Multiscale regression starts from a basic regression whose bandwidth is searched in the default
range, with the ends replaced by the bounds the user has set: the weights are those of one of the bandwidths tried (when all weights can be computed). -/
theorem C127_multiscale_initial (u : MgwrSetup n k) (geo : Bool) (p : Option (DynMat × DynMat)) (hg : u.dist0 = ⟨geo, p⟩)
    (hc : FitsData u.coords n) (hn : 0 < n) (dist : Fin n → Fin n → ℝ) (hd : IsMapDistance geo u.coords u.coords dist)
    (x : Matrix (Fin n) (Fin k) ℝ) (W : Fin n → Fin n → ℝ) (h : mgwrInitialWeights u x = .ok W) :
    ∃ l v tried, DefaultRange u.bw0.mAdaptive dist l v ∧ StartsInRange u.bw0.mAdaptive (u.lower.getD l) (u.upper.getD v) tried ∧
      ∃ b ∈ tried, UsableRadius { u.bw0 with mBandwidth := b } dist → IsKernelWeight { u.bw0 with mBandwidth := b } dist W := by
  unfold mgwrInitialWeights at h
  obtain ⟨c, -, h⟩ := Res.bind_eq_ok'.1 h
  obtain ⟨d', hb, h⟩ := Res.bind_eq_ok'.1 h
  obtain ⟨r, hr, h⟩ := Res.bind_eq_ok'.1 h
  obtain ⟨b, ho, hW⟩ := Res.bind_eq_ok'.1 h
  rw [hg] at hb
  obtain ⟨-, -, rfl⟩ := bindLocations_eq_ok.1 hb
  unfold gwrSelectBandwidth at hr
  obtain ⟨v, hv, hr⟩ := Res.bind_eq_ok'.1 hr
  cases Res.ok.inj hr
  obtain ⟨u0, h0, rfl⟩ := range_of_bounds hc hn hd hv
  refine ⟨_, u0, _, h0, C127_search_starts _ _ _ (fun _ b => (true, gwrCriterion c ⟨geo, some (u.coords, u.coords)⟩ x u.y b)) [],
    b.mBandwidth, ?_, fun hu => ?_⟩
  · have hev := optimize_evals u.bw0 (u.lower.getD (if u.bw0.mAdaptive then 20 else 0)) (u.upper.getD u0)
      (fun b => gwrCriterion c ⟨geo, some (u.coords, u.coords)⟩ x u.y b) []
    obtain ⟨e, he, hx, -⟩ := C14_returns_best_evaluated _ _ _ _ _ _ ho fun e he => (hev e he).1
    exact List.mem_map.2 ⟨e, he, hx⟩
  · have hk := optimize_kind _ _ _ _ _ ho
    rw [← hk] at hu ⊢
    obtain ⟨W', e1, e2, -⟩ := kernelRows hc.2 hc.2 hd hu fun _ => hn
    cases Res.ok.inj (e1.symm.trans hW)
    exact e2

/-- **C127 (multiscale regression).** A fixed bandwidth of a variable without a start value (type `Null`) is also searched from 0 to the largest distance
between observations, although the lower end is computed as the smallest distance; again with the ends replaced by the bounds that are set. (With a
start value, the range without bounds is empty: C65.) -/
theorem C127_multiscale_range (coords : DynMat) (hc : FitsData coords n) (hn : 0 < n) (range : ℝ × ℝ)
    (h : mgwrDistRange .Null ⟨false, some (coords, coords)⟩ = .ok range) (adaptiveLower : ℝ) (lower upper : Option ℝ) :
    ∃ l u, DefaultRange false (fun i j : Fin n => plane (coords.val i) (coords.val j)) l u ∧
      mgwrBounds .Null false adaptiveLower lower upper n range = (lower.getD l, upper.getD u) := by
  have hd : IsMapDistance (m := n) (n := n) false coords coords fun i j => plane (coords.val i) (coords.val j) := fun _ _ => rfl
  unfold mgwrDistRange at h
  rw [if_pos rfl] at h
  obtain ⟨M, hM, h⟩ := Res.bind_eq_ok'.1 h
  obtain ⟨m, hm, h⟩ := Res.bind_eq_ok'.1 h
  cases Res.ok.inj h
  refine ⟨m, M, ?_, by simp [mgwrBounds]⟩
  simp only [DefaultRange, Bool.false_eq_true, if_false]
  refine ⟨?_, map_max hc hn hd hM⟩
  unfold CRSDistance.minDistance at hm
  simp only [hc.2] at hm
  obtain ⟨-, h2, h3⟩ := minLoop_spec hm
  apply le_antisymm
  · obtain ⟨l, hl, -, hle⟩ := h2 0 (List.mem_range.2 hn)
    have := map_rows hc hd ⟨0, hn⟩
    cases Res.ok.inj (hl.symm.trans this)
    have := hle _ (List.mem_ofFn.2 ⟨⟨0, hn⟩, rfl⟩)
    rwa [map_diag hd] at this
  · rcases h3 with rfl | ⟨i, hi, l, hl, hmem⟩
    · linarith [hundred_lt_dblMax]
    · have hi' := List.mem_range.1 hi
      cases Res.ok.inj (hl.symm.trans (map_rows hc hd ⟨i, hi'⟩))
      obtain ⟨j, hj⟩ := List.mem_ofFn.1 hmem
      rw [← hj]
      exact Real.sqrt_nonneg _

/-- **C127 (GPU).** The same for basic regression on the GPU. -/
theorem C127_gpu_range (c : Crit) (G : ℕ) (g : ℕ → ℕ → ℝ) (geo : Bool) (b0 : BandwidthWeight) (coords : DynMat)
    (hc : FitsData coords n) (hn : 0 < n) (dist : Fin n → Fin n → ℝ) (hd : IsMapDistance geo coords coords dist) (x : Matrix (Fin n) (Fin k) ℝ)
    (y : Fin n → ℝ) (r : SearchResult) (h : gpuSearch c G g ⟨geo, some (coords, coords)⟩ b0 none none x y = .ok r) :
    ∃ l u, DefaultRange b0.mAdaptive dist l u ∧ StartsInRange b0.mAdaptive l u (r.evals.map Eval.x) := by
  unfold gpuSearch gwrUpper at h
  obtain ⟨u, hu, h⟩ := Res.bind_eq_ok'.1 h
  cases Res.ok.inj h
  exact ⟨_, u, default_range hc hn hd hu, C127_search_starts _ _ _ _ _⟩

/-- **C127 (robust regression).** The same for robust regression (whatever bounds the user sets, C96). -/
theorem C127_robust_range (c : Crit) (geo : Bool) (b0 : BandwidthWeight) (coords : DynMat)
    (hc : FitsData coords n) (hn : 0 < n) (dist : Fin n → Fin n → ℝ) (hd : IsMapDistance geo coords coords dist) (x : Matrix (Fin n) (Fin k) ℝ)
    (y : Fin n → ℝ) (r : SearchResult) (h : gwrSelectBandwidth c ⟨geo, some (coords, coords)⟩ b0 none none x y = .ok r) :
    ∃ l u, DefaultRange b0.mAdaptive dist l u ∧ StartsInRange b0.mAdaptive l u (r.evals.map Eval.x) := by
  unfold gwrSelectBandwidth at h
  obtain ⟨u, hu, h⟩ := Res.bind_eq_ok'.1 h
  cases Res.ok.inj h
  exact ⟨_, u, default_range hc hn hd hu, C127_search_starts _ _ _ _ _⟩

/-- **C127 (local ridge regression).** The same for locally compensated ridge regression. -/
theorem C127_ridge_range (sv : Matrix (Fin n) (Fin k) ℝ → ℝ × ℝ) (cfg : LcrCfg) (geo : Bool) (b0 : BandwidthWeight) (coords : DynMat)
    (hc : FitsData coords n) (hn : 0 < n) (dist : Fin n → Fin n → ℝ) (hd : IsMapDistance geo coords coords dist) (x : Matrix (Fin n) (Fin k) ℝ)
    (y : Fin n → ℝ) (r : SearchResult) (h : lcrSelectBandwidth sv cfg ⟨geo, some (coords, coords)⟩ b0 x y = .ok r) :
    ∃ l u, DefaultRange b0.mAdaptive dist l u ∧ StartsInRange b0.mAdaptive l u (r.evals.map Eval.x) := by
  unfold lcrSelectBandwidth at h
  obtain ⟨u, hu, h⟩ := Res.bind_eq_ok'.1 h
  dsimp only at h
  rw [ite_eq_iff] at h
  rcases h with ⟨-, h⟩ | ⟨-, h⟩
  · cases Res.ok.inj h
    exact ⟨_, u, default_range hc hn hd hu, C127_search_starts _ _ _ _ _⟩
  · cases h

/-- **C127 (generalised regression).** The same for Poisson and binomial regression, in any mode. -/
theorem C127_generalised_range (F : Family) (tol : ℝ) (maxIter : ℕ) (crit : GgwrCriterionType) (sched : ℕ → Exec n) (geo : Bool)
    (b0 : BandwidthWeight) (coords : DynMat) (hc : FitsData coords n) (hn : 0 < n) (dist : Fin n → Fin n → ℝ)
    (hd : IsMapDistance geo coords coords dist) (x : Matrix (Fin n) (Fin k) ℝ) (y : Fin n → ℝ) (r : SearchResult)
    (h : ggwrSelectBandwidthEx F tol maxIter crit ⟨geo, some (coords, coords)⟩ b0 x y sched = .ok r) :
    ∃ l u, DefaultRange b0.mAdaptive dist l u ∧ StartsInRange b0.mAdaptive l u (r.evals.map Eval.x) := by
  unfold ggwrSelectBandwidthEx at h
  obtain ⟨u, hu, h⟩ := Res.bind_eq_ok'.1 h
  dsimp only at h
  rw [ite_eq_iff] at h
  rcases h with ⟨-, h⟩ | ⟨-, h⟩
  · cases Res.ok.inj h
    exact ⟨_, u, default_range hc hn hd hu, C127_search_starts _ _ _ _ _⟩
  · cases h

/-- **C127 (space-time regression).** The same for space-time regression, with the space-time distances. -/
theorem C127_spacetime_range (c : Crit) (geo : Bool) (d d' : CRSSTDistance) (hd : STConfig geo d) (b0 : BandwidthWeight) (coords : DynMat)
    (hc : FitsData coords n) (hn : 0 < n) (τ : Fin n → ℝ) (dist : Fin n → Fin n → ℝ)
    (hst : IsSpaceTimeDistance geo coords τ d.mLambda (stFactor d) dist) (hd' : gtwrBind d coords (List.ofFn τ) = .ok d')
    (x : Matrix (Fin n) (Fin k) ℝ) (y : Fin n → ℝ) (r : SearchResult) (h : gtwrSelectBandwidth c d' b0 x y = .ok r) :
    ∃ l u, DefaultRange b0.mAdaptive dist l u ∧ StartsInRange b0.mAdaptive l u (r.evals.map Eval.x) := by
  obtain ⟨d1, e1, hrow⟩ := st_distance_any hd hc hst
  obtain rfl := Res.ok.inj (hd'.symm.trans e1)
  unfold gtwrSelectBandwidth at h
  obtain ⟨⟨l, u⟩, hu, h⟩ := Res.bind_eq_ok'.1 h
  dsimp only at h
  rw [ite_eq_iff] at h
  rcases h with ⟨-, h⟩ | ⟨-, h⟩
  swap
  · cases h
  cases Res.ok.inj h
  refine ⟨l, u, ?_, C127_search_starts _ _ _ _ _⟩
  unfold gtwrBounds at hu
  unfold DefaultRange
  cases ha : b0.mAdaptive with
  | true =>
    rw [ha] at hu
    simp only [if_true] at hu ⊢
    cases Res.ok.inj hu
    exact ⟨rfl, rfl⟩
  | false =>
    rw [ha] at hu
    simp only [Bool.false_eq_true, if_false] at hu ⊢
    obtain ⟨M, hM, e⟩ := Res.bind_eq_ok'.1 hu
    cases Res.ok.inj e
    refine ⟨rfl, ?_⟩
    obtain ⟨sd, hm, hs⟩ := hst
    have h0 : ∀ i, dist i i = 0 := fun i => by
      rw [hs i i, if_neg (fun h => lt_irrefl _ h.1), map_diag hm i]; simp
    have hp : d'.mParameter = some n := by
      obtain ⟨⟨s, e2, -⟩, ⟨t, e3⟩⟩ := hd
      rw [gtwrBind_eq e2 e3 hc.1 (by rw [hc.2, List.length_ofFn])] at e1
      rw [← Res.ok.inj e1]
      exact congrArg some hc.2
    unfold CRSSTDistance.maxDistance at hM
    rw [hp] at hM
    exact maxLoop_greatest hrow h0 hn hM

/-- **C127 (space-time distances), refuted.** If two observations have different times (and λ is not 1), the future counts as 10^13 away: whatever the
data, a fixed bandwidth is searched up to at least 10^13, and the first bandwidths that are tried are about 6·10^12 and 4·10^12. -/
theorem C127_spacetime_range_is_astronomic (c : Crit) (geo : Bool) (d d' : CRSSTDistance) (hd : STConfig geo d) (bw : ℝ) (kernel : KernelType)
    (coords : DynMat) (hc : FitsData coords n) (τ : Fin n → ℝ) (dist : Fin n → Fin n → ℝ)
    (hst : IsSpaceTimeDistance geo coords τ d.mLambda (stFactor d) dist) (hd' : gtwrBind d coords (List.ofFn τ) = .ok d')
    (hl : 10 ^ (-16 : ℤ) ≤ |d.mLambda - 1|) (ht : ∃ i j, τ i < τ j)
    (x : Matrix (Fin n) (Fin k) ℝ) (y : Fin n → ℝ) (r : SearchResult) (h : gtwrSelectBandwidth c d' ⟨bw, false, kernel⟩ x y = .ok r) :
    ∃ a b rest, r.evals.map Eval.x = a :: b :: rest ∧ 6 * 10 ^ 12 ≤ a ∧ 3.8 * 10 ^ 12 ≤ b := by
  obtain ⟨i, j, hij⟩ := ht
  obtain ⟨l, u, h1, a, b, rest, h2, h3⟩ := C127_spacetime_range c geo d d' hd _ coords hc i.pos τ dist hst hd' x y r h
  simp only [DefaultRange, Bool.false_eq_true, if_false] at h1 h3
  obtain ⟨rfl, -, hu⟩ := h1
  obtain ⟨s, -, hs⟩ := hst
  have hu' : 10 ^ 13 ≤ u := by
    have := hu ⟨(i, j), rfl⟩
    dsimp only at this
    rwa [hs i j, if_pos ⟨hij, hl⟩] at this
  obtain ⟨b1, b2⟩ := goldenR_bounds
  unfold goldenR at b1 b2
  refine ⟨a, b, rest, h2, ?_, ?_⟩
  · rw [h3.1]; nlinarith
  · rw [h3.2]; nlinarith

/-- **C127 (few observations), refuted.** With fewer than 18 observations the default range of a number of neighbours is upside down: whatever the data and
the criterion, the first number of neighbours that is tried is larger than the number of observations. -/
theorem C127_few_observations (hn' : n < 18) (dist : Fin n → Fin n → ℝ) (l u : ℝ) (h : DefaultRange true dist l u) (tried : List ℝ)
    (ht : StartsInRange true l u tried) : ∃ a rest, tried = a :: rest ∧ (n : ℝ) < a := by
  obtain ⟨a, b, rest, e, h2⟩ := ht
  simp only [DefaultRange, if_true] at h h2
  obtain ⟨rfl, rfl⟩ := h
  refine ⟨a, _, e, ?_⟩
  rw [h2.1]
  have h18 : (n : ℝ) ≤ 17 := by exact_mod_cast Nat.le_of_lt_succ hn'
  obtain ⟨b1, b2⟩ := goldenR_bounds
  unfold goldenR at b1 b2
  have : ((n : ℤ) + 1 : ℤ) ≤ ⌊(20 : ℝ) + (√5 - 1) / 2 * ((n : ℝ) - 20)⌋ := by
    rw [Int.le_floor]; push_cast; nlinarith
  have h3 : ((n : ℤ) + 1 : ℝ) ≤ (⌊(20 : ℝ) + (√5 - 1) / 2 * ((n : ℝ) - 20)⌋ : ℝ) := by exact_mod_cast this
  push_cast at h3
  linarith

/-- **C73 (stopped score).** A stop request during the cross-validation of a bandwidth of local ridge regression makes the score the largest double: such a
bandwidth is never preferred to one that was evaluated completely. -/
theorem C73_stopped_score (sv : Matrix (Fin n) (Fin k) ℝ → ℝ × ℝ) (cfg : LcrCfg) (x : Matrix (Fin n) (Fin k) ℝ) (y : Fin n → ℝ)
    (W : Fin n → Fin n → ℝ) (stop : ℕ → Bool) (q : ℕ) (hq : q < n) (hs : stop q = true) (v : ℝ)
    (h : lcrCriterionCV sv cfg x y W stop = .ok v) : v = dblMax := by
  unfold lcrCriterionCV at h
  obtain ⟨r, hr, h⟩ := Res.bind_eq_ok'.1 h
  rw [if_pos (serialFor_stop _ 0 q _ (Nat.zero_le _) (by simpa using hq) hs r hr)] at h
  exact (Res.ok.inj h).symm

/-- A stop request before the first location: the score is defined. -/
example (sv : Matrix (Fin 3) (Fin 2) ℝ → ℝ × ℝ) (cfg : LcrCfg) (x : Matrix (Fin 3) (Fin 2) ℝ) (y : Fin 3 → ℝ) (W : Fin 3 → Fin 3 → ℝ) :
    lcrCriterionCV sv cfg x y W (fun _ => true) = .ok dblMax := by
  simp [lcrCriterionCV, List.finRange_succ, serialFor, Res.bind]

/-! ## The hypotheses are met -/

/-- Three points on a line, ten apart: in every mode, for any data, the search for a fixed bandwidth starts at about 12.36 and 7.64. -/
example (c : Crit) (sched : ℕ → Exec 3) (x : Matrix (Fin 3) (Fin 2) ℝ) (y : Fin 3 → ℝ) :
    ∃ r, gwrSearchEx c sched ⟨false, some (lineCoords 10, lineCoords 10)⟩ ⟨5, false, .Gaussian⟩ none none x y = .ok r ∧
      StartsInRange false 0 20 (r.evals.map Eval.x) := by
  obtain ⟨M, -, hM, -⟩ := C08_max_min_sharp (lineCoords 10) (lineCoords 10) (by norm_num [lineCoords]) (by norm_num [lineCoords])
    (fun i hi j hj => by
      rw [line_dist]
      have hi : (i : ℝ) ≤ 3 := by exact_mod_cast (show i < 3 from hi).le
      have hj : (j : ℝ) ≤ 3 := by exact_mod_cast (show j < 3 from hj).le
      have hi0 : (0 : ℝ) ≤ i := Nat.cast_nonneg _
      have hj0 : (0 : ℝ) ≤ j := Nat.cast_nonneg _
      have : |(j : ℝ) - i| ≤ 3 := abs_le.2 ⟨by linarith, by linarith⟩
      rw [abs_of_pos (by norm_num : (0 : ℝ) < 10)]
      linarith [hundred_lt_dblMax])
  have hr : gwrSearchEx c sched ⟨false, some (lineCoords 10, lineCoords 10)⟩ ⟨5, false, .Gaussian⟩ none none x y =
      .ok (optimize ⟨5, false, .Gaussian⟩ 0 M
        (fun j b => (true, gwrCriterionEx c ⟨false, some (lineCoords 10, lineCoords 10)⟩ x y b (sched j))) []) := by
    unfold gwrSearchEx gwrUpper
    simp only [Bool.false_eq_true, if_false, hM, Res.bind, Option.getD]
  refine ⟨_, hr, ?_⟩
  obtain ⟨l, u, h1, h2⟩ := C127_basic_range c sched false _ none none (lineCoords 10) ⟨rfl, rfl⟩ (by norm_num) _ (line_mapDistance 10) x y _ hr
  simp only [DefaultRange, Bool.false_eq_true, if_false] at h1
  obtain ⟨rfl, hu⟩ := h1
  have : u = 20 := hu.unique ⟨⟨(0, 2), by norm_num⟩, by
    rintro _ ⟨⟨i, j⟩, rfl⟩
    fin_cases i <;> fin_cases j <;> norm_num⟩
  subst this
  exact h2

/-- Three points on a line, one apart, at times 0, 1, 2: the search of space-time regression succeeds, and starts with bandwidths of more than 10^12. -/
example : ∃ d' r, gtwrBind (exST (1 / 2)) (lineCoords 1) (List.ofFn ![0, 1, 2]) = .ok d' ∧
    gtwrSelectBandwidth .CV d' ⟨1, false, .Gaussian⟩ exX (exX *ᵥ ![2, 3]) = .ok r ∧
    ∃ a b rest, r.evals.map Eval.x = a :: b :: rest ∧ 6 * 10 ^ 12 ≤ a ∧ 3.8 * 10 ^ 12 ≤ b := by
  obtain ⟨l, g, h, -⟩ := ex_gtwrRun .serial trivial false
  unfold gtwrRunEx at h
  obtain ⟨d', hd, h⟩ := Res.bind_eq_ok'.1 h
  obtain ⟨b, hb, -⟩ := Res.bind_eq_ok'.1 h
  obtain ⟨r, hr, -⟩ := Res.bind_eq_ok'.1 hb
  exact ⟨d', r, hd, hr, C127_spacetime_range_is_astronomic (n := 3) .CV false (exST (1 / 2)) d' (exST_config _) 1 .Gaussian (lineCoords 1) ⟨rfl, rfl⟩ ![0, 1, 2] _
    (lineST_spec (1 / 2)) hd (by show (10 : ℝ) ^ (-16 : ℤ) ≤ |(1 / 2 : ℝ) - 1|; norm_num [abs_of_neg]) ⟨0, 1, by simp⟩ exX _ r hr⟩

end Verif.Props

import Verif.Props.RobustRun
import Verif.Props.GWRBasicRun

/-! # C110 for every kind of bandwidth and for geographic coordinates -/

namespace Verif.Props
open Verif Verif.Model Verif.Spec Matrix Classical

variable {n k : ℕ}

/-- The bandwidths `tried` by a search among bandwidths of the kind of `b0`, with the values it compared: at least two; the chosen one has the smallest
value; the value of a bandwidth that makes sense for the distances is the leave-one-out score or corrected Akaike criterion of its regressions if that is
defined and a double, `DBL_MAX` if it is not defined. -/
structure IsBandwidthSearch (c : Crit) (b0 : BandwidthWeight) (dist : Fin n → Fin n → ℝ) (x : Matrix (Fin n) (Fin k) ℝ) (y : Fin n → ℝ) (chosen : ℝ)
    (tried : List (ℝ × ℝ)) : Prop where
  two : 2 ≤ tried.length
  best : ∃ v, (chosen, v) ∈ tried ∧ ∀ q ∈ tried, v ≤ q.2
  value : ∀ q ∈ tried, UsableRadius { b0 with mBandwidth := q.1 } dist → ∀ w, IsKernelWeight { b0 with mBandwidth := q.1 } dist w →
    (∀ v, IsGWRScore c x y w v → |v| ≤ dblMax → q.2 = v) ∧ ((¬ ∃ v, IsGWRScore c x y w v) → q.2 = dblMax)

theorem serial_search {c : Crit} {geo : Bool} {b0 b : BandwidthWeight} {lower upper : Option ℝ} {coords : DynMat} (hc : FitsData coords n)
    {dist : Fin n → Fin n → ℝ} (hd : IsMapDistance geo coords coords dist) {x : Matrix (Fin n) (Fin k) ℝ} {y : Fin n → ℝ} {r : SearchResult}
    (hr : gwrSelectBandwidth c ⟨geo, some (coords, coords)⟩ b0 lower upper x y = .ok r) (ho : r.out = .ok b) :
    b = { b0 with mBandwidth := b.mBandwidth } ∧ ∃ tried, IsBandwidthSearch c b0 dist x y b.mBandwidth tried := by
  unfold gwrSelectBandwidth at hr
  obtain ⟨u, -, hr⟩ := Res.bind_eq_ok'.1 hr
  cases Res.ok.inj hr
  refine ⟨optimize_kind _ _ _ _ _ ho, (optimize b0 (lower.getD (if b0.mAdaptive then 20 else 0)) u
      (fun _ b => (true, gwrCriterion c ⟨geo, some (coords, coords)⟩ x y b)) []).evals.map fun e => (e.x, e.f), ?_, ?_, ?_⟩
  · rw [List.length_map]; exact (C16_call_bound _ _ _ _ _).1
  · have hev := optimize_evals b0 (lower.getD (if b0.mAdaptive then 20 else 0)) u (gwrCriterion c ⟨geo, some (coords, coords)⟩ x y) []
    obtain ⟨e, he, hx, hmin⟩ := C14_returns_best_evaluated _ _ _ _ _ _ ho fun e he => (hev e he).1
    refine ⟨e.f, List.mem_map.2 ⟨e, he, by rw [hx]⟩, fun q hq => ?_⟩
    obtain ⟨e', he', rfl⟩ := List.mem_map.1 hq
    exact hmin e' he'
  · intro q hq hu w hw
    obtain ⟨e, he, rfl⟩ := List.mem_map.1 hq
    have hf := (optimize_evals b0 (lower.getD (if b0.mAdaptive then 20 else 0)) u (gwrCriterion c ⟨geo, some (coords, coords)⟩ x y) [] e he).2
    obtain ⟨c1, c2⟩ := C119_criterion c .serial trivial geo _ coords hc dist w hd hu hw x y
    show (∀ v, _ → _ → e.f = v) ∧ (_ → e.f = dblMax)
    rw [hf]
    exact ⟨fun v hv hle => by rw [show gwrCriterion _ _ _ _ _ = gwrCriterionEx _ _ _ _ _ .serial from rfl]; rw [c1 v hv, if_pos hle],
      fun hno => c2 rfl hno⟩

/-- **C110 (fit, every kind of bandwidth).** For planar or geographic coordinates, every kernel and every bandwidth (fixed, or adaptive with an integer or
fractional number of neighbours), in parallel or not: a completed fit reports the coefficients, standard errors and diagnostics of the robust method that
was chosen, for the kernel weights of the distances between the coordinates. -/
theorem C110_any_fit (filtered : Bool) (sched : (Fin n → ℝ) → Exec n) (hs : ∀ mask, (sched mask).Valid) (geo : Bool) (p : Option (DynMat × DynMat))
    (b : BandwidthWeight) (coords : DynMat) (hc : FitsData coords n) (dist w : Fin n → Fin n → ℝ) (hd : IsMapDistance geo coords coords dist)
    (hb : UsableRadius b dist) (hw : IsKernelWeight b dist w) (x : Matrix (Fin n) (Fin k) ℝ) (y : Fin n → ℝ) (sS : Bool) (r : RobustResult n k)
    (h : robustRun filtered sched ⟨geo, p⟩ b coords x y sS = .ok r) :
    r.weight = b ∧ ∃ mask C, IsRobustFit filtered x y w r mask C := by
  unfold robustRun at h
  obtain ⟨d', hd', h⟩ := Res.bind_eq_ok'.1 h
  obtain ⟨-, -, rfl⟩ := bindLocations_eq_ok.1 hd'
  obtain ⟨W, hW, e, h⟩ := robustFinish_explicit hs h
  obtain ⟨W', h1, h2, h3⟩ := kernelRows hc.2 hc.2 hd hb id
  cases Res.ok.inj (hW.symm.trans h1)
  obtain rfl := kernelWeight_unique h2 hw
  exact ⟨e, h h3⟩

/-- **C110 (bandwidth choice, every kind).** With automatic selection, in any mode and for planar or geographic coordinates: kernel and kind of the
bandwidth are the configured ones; the reported bandwidth has the smallest value of all bandwidths tried, these values being the leave-one-out scores or
corrected Akaike criteria of the regressions without robust weights; and if the reported bandwidth makes sense for the distances, the fit reports what
`C110_any_fit` says for it. -/
theorem C110_any_choice (c : Crit) (filtered : Bool) (sched : (Fin n → ℝ) → Exec n) (hs : ∀ mask, (sched mask).Valid) (geo : Bool)
    (p : Option (DynMat × DynMat)) (b0 : BandwidthWeight) (coords : DynMat) (hc : FitsData coords n) (dist : Fin n → Fin n → ℝ)
    (hd : IsMapDistance geo coords coords dist) (x : Matrix (Fin n) (Fin k) ℝ) (y : Fin n → ℝ) (sS : Bool) (r : RobustResult n k)
    (h : robustAutoRun c filtered sched ⟨geo, p⟩ b0 coords x y sS = .ok r) :
    r.weight.mKernel = b0.mKernel ∧ r.weight.mAdaptive = b0.mAdaptive ∧ (∃ tried, IsBandwidthSearch c b0 dist x y r.weight.mBandwidth tried) ∧
    (UsableRadius r.weight dist → ∀ w, IsKernelWeight r.weight dist w → ∃ mask C, IsRobustFit filtered x y w r mask C) := by
  unfold robustAutoRun at h
  obtain ⟨d', hd', h⟩ := Res.bind_eq_ok'.1 h
  obtain ⟨-, -, rfl⟩ := bindLocations_eq_ok.1 hd'
  obtain ⟨sr, hsr, h⟩ := Res.bind_eq_ok'.1 h
  obtain ⟨b, hb, h⟩ := Res.bind_eq_ok'.1 h
  obtain ⟨W, hW, e, h⟩ := robustFinish_explicit hs h
  obtain ⟨k1, k2⟩ := serial_search hc hd hsr hb
  refine ⟨by rw [e, k1], by rw [e, k1], by rw [e]; exact k2, fun hu w hw => ?_⟩
  rw [e] at hu hw
  obtain ⟨W', h1, h2, h3⟩ := kernelRows hc.2 hc.2 hd hu id
  cases Res.ok.inj (hW.symm.trans h1)
  obtain rfl := kernelWeight_unique h2 hw
  exact h h3

/-- Where a basic fit succeeds without residuals, so does the first robust method. -/
theorem robust_of_exact {d' : CRSDistance} {b : BandwidthWeight} {x : Matrix (Fin n) (Fin k) ℝ} {β : Fin k → ℝ} {sS : Bool} {W : Fin n → Fin n → ℝ}
    (hW : weightRows d' b n n = .ok W) (h0 : ∀ i l, 0 ≤ W i l) {a : FitAcc n k}
    (ha : fitCoreSerial x (x *ᵥ β) W 0 n sS false NoStop = .ok (a, false)) :
    ∃ r, robustFinish true (fun _ => .serial) d' b x (x *ᵥ β) sS = .ok r := by
  obtain ⟨C, hC⟩ := serialFit_explicit h0 ha
  have hm : maskedW W (fun _ => 1) = W := by funext i l; simp [maskedW]
  have h1 : robustFit x (x *ᵥ β) W sS (fun _ => 1) = .ok a := by
    unfold robustFit
    rw [hm]
    exact Res.bind_eq_ok'.2 ⟨_, ha, rfl⟩
  have hB : ∀ i, a.betas i = β := fun i =>
    wls_unique (hC.local_.coefficients i) (wls_exact (h0 i) (wls_determined (h0 i) (hC.local_.coefficients i)) β)
  have hres : ∀ i, residualAt x (x *ᵥ β) a.betas i = 0 := fun i => by
    unfold residualAt
    simp [hB, mulVec, dotProduct]
  have hmask : outlierMask x (x *ᵥ β) a = fun _ => 1 := by
    funext l
    unfold outlierMask
    rw [if_neg]
    rintro ⟨-, -, ⟨-, h⟩ | ⟨-, h⟩⟩
    · rw [residuals_eq, hres] at h; exact h rfl
    · rw [residuals_eq, hres] at h; norm_num at h
  unfold robustFinish robustCali caliFirst robustFitEx
  simp only [hW, Res.bind, if_true, h1, hmask]
  exact ⟨_, rfl⟩

/-- Three points on a line, an exact linear response, the Gaussian kernel: the robust fit with automatic bandwidth succeeds. -/
theorem ex_robustAuto : ∃ r, robustAutoRun .CV true (fun _ => .serial) ⟨false, none⟩ ⟨1, false, .Gaussian⟩ (lineCoords 1) exX (exX *ᵥ ![2, 3]) true = .ok r := by
  have hp : ∀ i j : ℕ, plane ((lineCoords 1).val i) ((lineCoords 1).val j) = |(j : ℝ) - i| := fun i j => by
    rw [← euclid_eq_plane, line_dist, abs_one, one_mul]
  have hc : FitsData (lineCoords 1) 3 := ⟨rfl, rfl⟩
  obtain ⟨M, _, hM, -, h1, -⟩ := C08_max_min_sharp (lineCoords 1) (lineCoords 1) (by decide) (by decide) fun i hi j hj => by
    rw [euclid_eq_plane, hp]
    have hi : (i : ℝ) ≤ 2 := by exact_mod_cast Nat.lt_succ_iff.1 hi
    have hj : (j : ℝ) ≤ 2 := by exact_mod_cast Nat.lt_succ_iff.1 hj
    have hi0 : (0 : ℝ) ≤ i := Nat.cast_nonneg _
    have hj0 : (0 : ℝ) ≤ j := Nat.cast_nonneg _
    have := hundred_lt_dblMax
    rw [abs_le]; constructor <;> linarith
  have hpos : 0 < M := by
    have := (h1 0 _ (by simp only [CRSDistance.distance]; rw [if_pos (by decide), crsDistRow_planar]) (euclid ((lineCoords 1).val 0)
      ((lineCoords 1).val 1)) (List.mem_map.2 ⟨1, by simp [lineCoords], rfl⟩)).2
    rw [euclid_eq_plane, hp] at this
    norm_num at this
    linarith
  obtain ⟨r, g, h, hk, hpos, -⟩ := ex_autoRun (D := 1) (l := 0) (u := M) none none rfl (by simp [gwrUpper, hM]) le_rfl hpos (fun _ => .serial)
    (fun _ => trivial) .serial trivial ![2, 3] true false
  unfold gwrAutoRun at h
  obtain ⟨d', hd', h⟩ := Res.bind_eq_ok'.1 h
  obtain ⟨sr, hsr, h⟩ := Res.bind_eq_ok'.1 h
  obtain ⟨b, hb, h⟩ := Res.bind_eq_ok'.1 h
  obtain ⟨g', hg, h⟩ := Res.bind_eq_ok'.1 h
  obtain ⟨-, rfl⟩ := Prod.ext_iff.1 (Res.ok.inj h)
  obtain ⟨-, -, rfl⟩ := bindLocations_eq_ok.1 hd'
  unfold gwrFinish at hg
  obtain ⟨W, hW, hg⟩ := Res.bind_eq_ok'.1 hg
  obtain ⟨a, ha, hg⟩ := Res.bind_eq_ok'.1 hg
  have hbg : g'.weight = b := by rw [← Res.ok.inj hg]
  simp only [hbg] at hk hpos
  have hW : weightRows ⟨false, some (lineCoords 1, lineCoords 1)⟩ b 3 3 = .ok W := hW
  obtain ⟨⟨a', t⟩, ha, -⟩ := Res.bind_eq_ok'.1 ha
  have ht : t = false := serialFor_nostop _ _ _ ha
  subst ht
  have h0 : ∀ i l, 0 ≤ W i l := fun i l => by
    rw [hk] at hW
    rw [((weights_fixed hpos).1 hW i).2.2]
    exact kernelFormula_nonneg _ hpos _
  obtain ⟨rr, hrr⟩ := robust_of_exact hW h0 ha
  refine ⟨rr, ?_⟩
  unfold robustAutoRun
  rw [hd']
  have hs : gwrSelectBandwidth .CV ⟨false, some (lineCoords 1, lineCoords 1)⟩ ⟨1, false, .Gaussian⟩ none none exX (exX *ᵥ ![2, 3]) = .ok sr := hsr
  simp only [Res.bind, hs, hb, hrr]

end Verif.Props

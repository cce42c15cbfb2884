import Verif.Model.GWRRun
import Verif.Props.GWRParallel
import Verif.Props.Kernel
import Verif.Props.Distance
import Verif.Props.Geo
import Verif.Props.BandwidthSelector

/-! # C50–C52, C57: whole runs of GWR -/

namespace Verif.Props
open Verif Verif.Model Verif.Spec Matrix Classical

variable {n k m : ℕ}

/-! ## C50 -/

theorem predict_eq_of_fit {x : Matrix (Fin n) (Fin k) ℝ} {y : Fin n → ℝ} {W : Fin n → Fin n → ℝ} {sS sC : Bool}
    {a : FitAcc n k} (h : fitCoreSerial x y W 0 n sS sC NoStop = .ok (a, false)) :
    predictSerial x y W NoStop = .ok (a.betas, false) := by
  obtain ⟨hp, hc⟩ := fitCoreSerial_ok h
  have hr : ∀ i ∈ List.finRange n, localBeta x y (W i) = .ok (a.betas i) := fun i _ =>
    localBeta_eq_ok.2 ⟨hp i (Nat.zero_le _) i.isLt, hc.betas i (Nat.zero_le _) i.isLt⟩
  have e : predictSerial x y W NoStop = _ := serialFor_ok (fun i => a.betas i) _ 0 _ (fun _ _ => rfl) hr
  rw [e]
  have hb := betaLoop_ok (List.nodup_finRange n) e
  congr 2
  funext i
  exact Res.ok.inj ((hb.1 i (List.mem_finRange i)).symm.trans (hr i (List.mem_finRange i)))

/-- **C50.** For every coordinate matrix, data, kernel and bandwidth (fixed or adaptive): predicting at the locations used for
fitting returns exactly the coefficients of the fit. -/
theorem C50_predict_at_data_eq_fit (d : CRSDistance) (b : BandwidthWeight) (coords : DynMat) (x : Matrix (Fin n) (Fin k) ℝ)
    (y : Fin n → ℝ) (sS sC : Bool) (a : FitAcc n k) (h : gwrFit d b coords x y sS sC NoStop = .ok (a, false)) :
    gwrPredict d b coords coords n x y NoStop = .ok (a.betas, false) := by
  unfold gwrFit at h
  rw [Res.bind_eq_ok'] at h
  obtain ⟨d', h1, h2⟩ := h
  rw [Res.bind_eq_ok'] at h2
  obtain ⟨W, h2, h3⟩ := h2
  unfold gwrPredict
  rw [h1, Res.bind, h2, Res.bind]
  exact predict_eq_of_fit h3

/-- **C50 (single locations).** More generally the coefficients predicted at a location depend only on that location: a
location listed among others gets the same row as in any other list. -/
theorem C50_prediction_depends_on_location_only (d : CRSDistance) (b : BandwidthWeight) (l1 l2 coords : DynMat) (m1 m2 : ℕ)
    (x : Matrix (Fin n) (Fin k) ℝ) (y : Fin n → ℝ) (b1 : Matrix (Fin m1) (Fin k) ℝ) (b2 : Matrix (Fin m2) (Fin k) ℝ)
    (h1 : gwrPredict d b l1 coords m1 x y NoStop = .ok (b1, false)) (h2 : gwrPredict d b l2 coords m2 x y NoStop = .ok (b2, false))
    (i : Fin m1) (j : Fin m2) (hl : l1.val i = l2.val j) : b1 i = b2 j := by
  have key : ∀ (l : DynMat) (m : ℕ) (bb : Matrix (Fin m) (Fin k) ℝ), gwrPredict d b l coords m x y NoStop = .ok (bb, false) →
      ∀ i : Fin m, ((crsDistRow d.mGeographic l coords i).bind fun r => (rowToVec r n).bind fun dist => (b.weight dist).bind
        fun w => localBeta x y w) = .ok (bb i) := by
    intro l m bb h i
    unfold gwrPredict at h
    rw [Res.bind_eq_ok'] at h
    obtain ⟨d', e1, h⟩ := h
    rw [Res.bind_eq_ok'] at h
    obtain ⟨W, e2, h⟩ := h
    have hw := Res.tabulate_eq_ok.1 e2 i
    have hb := (betaLoop_ok (List.nodup_finRange m) h).1 i (List.mem_finRange i)
    unfold bindLocations at e1
    simp only [CRSDistance.makeParameter, DistParam.getMat] at e1
    split at e1
    all_goals (rename_i heq; split at heq)
    all_goals first
      | (cases heq; done)
      | skip
    · cases heq
      cases e1
      unfold weightVector CRSDistance.distance at hw
      simp only at hw
      split at hw
      · rw [Res.bind_eq_ok'] at hw
        obtain ⟨r, hr, hw⟩ := hw
        rw [Res.bind_eq_ok'] at hw
        obtain ⟨dist, hdist, hw⟩ := hw
        rw [hr, Res.bind, hdist, Res.bind, hw, Res.bind]
        exact hb
      · cases hw
    all_goals cases e1
  have e1 := key l1 m1 b1 h1 i
  have e2 := key l2 m2 b2 h2 j
  have : crsDistRow d.mGeographic l1 coords i = crsDistRow d.mGeographic l2 coords j := by
    unfold crsDistRow; rw [hl]
  rw [this] at e1
  exact Res.ok.inj (e1.symm.trans e2)

/-! ## C57 -/

theorem weight_nonneg (b : BandwidthWeight) {n : ℕ} (dist w : Fin n → ℝ) (hd : ∀ i, 0 ≤ dist i) (h : b.weight dist = .ok w)
    (i : Fin n) : 0 ≤ w i := by
  obtain ⟨r, -, -, hw⟩ := weight_ok h
  have hwi := hw i
  have h01 : ∀ d bw : ℝ, 0 ≤ less d bw := fun d bw => by unfold less; split <;> norm_num
  cases hk : b.mKernel <;> rw [hk] at hwi
  · simp only [kernelAt, gaussianKernel] at hwi
    split at hwi
    · split at hwi
      · cases hwi
      · exact (Res.ok.inj hwi).symm ▸ le_rfl
    · exact (Res.ok.inj hwi) ▸ (Real.exp_pos _).le
  · simp only [kernelAt, exponentialKernel] at hwi
    split at hwi
    · split at hwi
      · exact (Res.ok.inj hwi).symm ▸ le_rfl
      · cases hwi
    · exact (Res.ok.inj hwi) ▸ (Real.exp_pos _).le
  · simp only [kernelAt, bisquareKernel] at hwi
    split at hwi
    · cases hwi
    · exact (Res.ok.inj hwi) ▸ mul_nonneg (h01 _ _) (mul_self_nonneg _)
  · simp only [kernelAt, tricubeKernel] at hwi
    split at hwi
    · cases hwi
    · rw [← Res.ok.inj hwi]
      unfold less
      split
      · rename_i hlt
        have hr : 0 < r := (hd i).trans_lt hlt
        have h3 : dist i * dist i * dist i / (r * r * r) ≤ 1 := by
          rw [div_le_one (by positivity)]
          have h2 : dist i * dist i ≤ r * r := mul_le_mul hlt.le hlt.le (hd i) hr.le
          exact mul_le_mul h2 hlt.le (hd i) (by positivity)
        have h4 : (0 : ℝ) ≤ 1.0 - dist i * dist i * dist i / (r * r * r) := by norm_num; linarith
        exact mul_nonneg zero_le_one (mul_nonneg (mul_nonneg h4 h4) h4)
      · simp
  · simp only [kernelAt, boxcarKernel] at hwi
    exact (Res.ok.inj hwi) ▸ mul_nonneg (h01 _ _) zero_le_one

theorem posDef_of_cv {x : Matrix (Fin n) (Fin k) ℝ} {W : Fin n → Fin n → ℝ} {i : Fin n} (h0 : 0 ≤ W i i)
    (h : (xtwx x (cvWeight W i)).PosDef) : (xtwx x (W i)).PosDef := by
  rw [gram_posDef_iff] at h ⊢
  intro b hb
  refine lt_of_lt_of_le (h b hb) (Finset.sum_le_sum fun l _ => ?_)
  simp only [cvWeight, Function.update_apply]
  split
  · rename_i hl; subst hl; rw [zero_mul]; exact mul_nonneg h0 (sq_nonneg _)
  · exact le_rfl

/-- A criterion value other than DBL_MAX means: all weights could be computed and every local regression is solvable. -/
theorem criterion_finite (c : Crit) (d' : CRSDistance) (x : Matrix (Fin n) (Fin k) ℝ) (y : Fin n → ℝ) (b : BandwidthWeight)
    (hd : ∀ i l, d'.distance i = .ok l → ∀ v ∈ l, 0 ≤ v) (h : gwrCriterion c d' x y b ≠ dblMax) :
    ∃ W, weightRows d' b n n = .ok W ∧ ∀ i, (xtwx x (W i)).PosDef := by
  unfold gwrCriterion at h
  cases hW : weightRows d' b n n with
  | throw e => rw [hW] at h; exact absurd rfl h
  | ub => rw [hW] at h; exact absurd rfl h
  | nonfinite => rw [hW] at h; exact absurd rfl h
  | ok W =>
    rw [hW] at h
    refine ⟨W, rfl, ?_⟩
    cases c with
    | AIC =>
      simp only at h
      cases hs : fitCoreSHatSerial x y W 0 n (fun _ => false) with
      | ok r =>
        have hr : serialFor (fun i => localFit x y (W i) (x i)) shatUpd NoStop (workRange n 0 n) 0 (0, 0) = .ok (r.1, false) := by
          have : r.2 = false := by
            by_contra hne
            have hne' : r.2 = true := by simpa using hne
            obtain ⟨⟨b', s'⟩, t⟩ := r
            simp only at hne'
            subst hne'
            rw [hs] at h
            simp only [criterionAIC] at h
            split at h <;> simp at h
          rw [← this]
          exact hs
        intro i
        obtain ⟨lf, hlf⟩ := serialFor_complete _ _ _ _ hr i (mem_workRange.2 ⟨Nat.zero_le _, i.isLt⟩)
        exact (localFit_eq_ok.1 hlf).1
      | throw e => rw [hs] at h; exact absurd rfl h
      | ub => rw [hs] at h; exact absurd rfl h
      | nonfinite => rw [hs] at h; exact absurd rfl h
    | CV =>
      simp only at h
      cases hs : fitCoreCVSerial x y W 0 n (fun _ => false) with
      | ok r =>
        have hr : serialFor (fun i => localBeta x y (cvWeight W i)) setRow NoStop (workRange n 0 n) 0 0 = .ok (r.1, false) := by
          have : r.2 = false := by
            by_contra hne
            have hne' : r.2 = true := by simpa using hne
            obtain ⟨b', t⟩ := r
            simp only at hne'
            subst hne'
            rw [hs] at h
            simp [criterionCV] at h
          rw [← this]
          exact hs
        intro i
        obtain ⟨lf, hlf⟩ := serialFor_complete _ _ _ _ hr i (mem_workRange.2 ⟨Nat.zero_le _, i.isLt⟩)
        refine posDef_of_cv ?_ (localBeta_eq_ok.1 hlf).1
        have hw := Res.tabulate_eq_ok.1 hW i
        unfold weightVector at hw
        rw [Res.bind_eq_ok'] at hw
        obtain ⟨l, hl, hw⟩ := hw
        rw [Res.bind_eq_ok'] at hw
        obtain ⟨dist, hdist, hw⟩ := hw
        refine weight_nonneg b dist (W i) (fun j => ?_) hw i
        unfold rowToVec at hdist
        split at hdist
        · rw [← Res.ok.inj hdist]
          exact hd i l hl _ (List.getElem_mem _)
        · cases hdist
      | throw e => rw [hs] at h; exact absurd rfl h
      | ub => rw [hs] at h; exact absurd rfl h
      | nonfinite => rw [hs] at h; exact absurd rfl h

theorem finiteOrMax_le (v : ℝ) : finiteOrMax v ≤ dblMax := by
  unfold finiteOrMax
  split
  · rename_i h; exact (le_abs_self v).trans h
  · exact le_rfl

theorem gwrCriterion_le (c : Crit) (d' : CRSDistance) (x : Matrix (Fin n) (Fin k) ℝ) (y : Fin n → ℝ) (b : BandwidthWeight) :
    gwrCriterion c d' x y b ≤ dblMax := by
  unfold gwrCriterion
  split
  · cases c with
    | CV =>
      simp only
      unfold criterionCV
      split
      · split
        · exact finiteOrMax_le _
        · exact le_rfl
      · exact le_rfl
    | AIC =>
      simp only
      unfold criterionAIC
      split
      · split
        · split
          · exact finiteOrMax_le _
          · exact le_rfl
        · exact le_rfl
      · exact le_rfl
  · exact le_rfl

theorem bindLocations_eq_ok {d d' : CRSDistance} {l c : DynMat} :
    bindLocations d l c = .ok d' ↔ l.nCols = 2 ∧ c.nCols = 2 ∧ d' = ⟨d.mGeographic, some (l, c)⟩ := by
  unfold bindLocations CRSDistance.makeParameter DistParam.getMat
  by_cases h : l.nCols = 2 ∧ c.nCols = 2
  · simp only [h, and_self, if_true, true_and, Res.ok.injEq]
    exact eq_comm
  · simp only [h, if_false]
    constructor
    · intro h'; cases h'
    · rintro ⟨h1, h2, -⟩; exact absurd ⟨h1, h2⟩ h

/-- All calls of a search whose criterion is a function of the weight. -/
theorem optimize_evals (b0 : BandwidthWeight) (l u : ℝ) (F : BandwidthWeight → ℝ) (m : List (ℝ × ℝ)) :
    ∀ e ∈ (optimize b0 l u (fun _ b => (true, F b)) m).evals, e.success = true ∧ e.f = F { b0 with mBandwidth := e.x } := by
  have h0 : ∀ e ∈ (goldenInit b0 l u (fun _ b => (true, F b)) m).evals, e.success = true ∧ e.f = F { b0 with mBandwidth := e.x } := by
    intro e he
    simp only [goldenInit, List.mem_cons, List.not_mem_nil, or_false] at he
    rcases he with rfl | rfl <;> exact ⟨rfl, rfl⟩
  have key := (goldenLoop_induct (bw := b0) (o := fun _ b => (true, F b))
    (P := fun s => ∀ e ∈ s.evals, e.success = true ∧ e.f = F { b0 with mBandwidth := e.x }) (by
      intro s hs _ e he
      unfold goldenStep at he
      dsimp only at he
      split at he
      all_goals
        rw [List.mem_append, List.mem_singleton] at he
        rcases he with he | rfl
        · exact hs e he
        · exact ⟨rfl, rfl⟩)
    (s := goldenStart b0 l u (fun _ b => (true, F b)) m) h0).1
  rcases optimize_cases b0 l u (fun _ b => (true, F b)) m with ⟨-, he⟩ | ⟨-, -, -, -, he⟩ | ⟨-, -, -, -, -, he⟩ | ⟨-, -, -, -, he⟩ <;>
    rw [he]
  · exact h0
  · exact h0
  · exact key
  · exact key

/-- What a successful search with such a criterion returns. -/
theorem optimize_function (b0 b : BandwidthWeight) (l u : ℝ) (F : BandwidthWeight → ℝ) (hF : ∀ b, F b ≤ dblMax) (m : List (ℝ × ℝ))
    (h : (optimize b0 l u (fun _ b => (true, F b)) m).out = .ok b) :
    F b < dblMax ∧ ∀ e ∈ (optimize b0 l u (fun _ b => (true, F b)) m).evals, F b ≤ F { b0 with mBandwidth := e.x } := by
  have hev := optimize_evals b0 l u F m
  obtain ⟨e, he, hx, hmin⟩ := C14_returns_best_evaluated b0 l u _ m b h (fun e he => (hev e he).1)
  obtain ⟨hk, ha⟩ := C17_kernel_kind_kept b0 l u _ m b h
  have hb : b = { b0 with mBandwidth := e.x } := by
    cases b; simp only at hk ha hx; simp [hk, ha, hx]
  have hfe : e.f = F b := by rw [hb]; exact (hev e he).2
  refine ⟨lt_of_le_of_ne (hF b) ?_, fun e' he' => ?_⟩
  · intro heq
    have hall : ∀ e' ∈ (optimize b0 l u (fun _ b => (true, F b)) m).evals, e'.f = dblMax := fun e' he' =>
      le_antisymm ((hev e' he').2 ▸ hF _) (by rw [← heq, ← hfe]; exact hmin e' he')
    have hthrow : (goldenInit b0 l u (fun _ b => (true, F b)) m).f1 = dblMax ∧
        (goldenInit b0 l u (fun _ b => (true, F b)) m).f2 = dblMax := by
      have hsub : ∀ e' ∈ (goldenInit b0 l u (fun _ b => (true, F b)) m).evals,
          e' ∈ (optimize b0 l u (fun _ b => (true, F b)) m).evals := by
        intro e' he'
        have hpre : (goldenStart b0 l u (fun _ b => (true, F b)) m).evals <+:
            (goldenLoop b0 (fun _ b => (true, F b)) (goldenStart b0 l u (fun _ b => (true, F b)) m)).evals := by
          refine (goldenLoop_induct (P := fun t => (goldenStart b0 l u (fun _ b => (true, F b)) m).evals <+: t.evals) ?_
            (List.prefix_refl _)).1
          intro t ht _
          unfold goldenStep
          dsimp only
          split <;> exact ht.trans (List.prefix_append _ _)
        rcases optimize_cases b0 l u (fun _ b => (true, F b)) m with ⟨-, hc⟩ | ⟨-, -, -, -, hc⟩ | ⟨-, -, -, -, -, hc⟩ | ⟨-, -, -, -, hc⟩ <;>
          rw [hc]
        · exact he'
        · exact he'
        · exact hpre.subset he'
        · exact hpre.subset he'
      exact ⟨hall _ (hsub ⟨_, _, _⟩ (List.mem_cons_self ..)),
        hall _ (hsub ⟨_, _, _⟩ (List.mem_cons_of_mem _ (List.mem_cons_self ..)))⟩
    rcases optimize_cases b0 l u (fun _ b => (true, F b)) m with ⟨hc, -⟩ | ⟨-, -, -, -, hc⟩ | ⟨-, -, hc, -⟩ | ⟨-, -, hc, -⟩
    · exact hc ⟨rfl, rfl⟩
    · rw [hc] at h; cases h
    · exact hc hthrow
    · exact hc hthrow
  · rw [← hfe, ← (hev e' he').2]; exact hmin e' he'

/-- **C57.** Serial mode, planar or geographic coordinates, any kernel, fixed or adaptive, any bounds, either criterion: whenever the search
returns a bandwidth, the fit with it succeeds (so `fit` with automatic selection can only fail in the selection), and no
bandwidth tried by the search has a smaller criterion value. -/
theorem C57_selected_bandwidth_fits (c : Crit) (d : CRSDistance) (b0 b : BandwidthWeight)
    (lower upper : Option ℝ) (coords : DynMat) (x : Matrix (Fin n) (Fin k) ℝ) (y : Fin n → ℝ) (sS sC : Bool) (d' : CRSDistance)
    (r : SearchResult) (hd' : bindLocations d coords coords = .ok d') (hr : gwrSelectBandwidth c d' b0 lower upper x y = .ok r)
    (hb : r.out = .ok b) :
    (∃ a, gwrFit d b coords x y sS sC NoStop = .ok (a, false) ∧
      gwrAutoFit c d b0 lower upper coords x y sS sC = .ok (b, a)) ∧
    ∀ e ∈ r.evals, gwrCriterion c d' x y b ≤ gwrCriterion c d' x y { b0 with mBandwidth := e.x } := by
  obtain ⟨-, -, hdd⟩ := bindLocations_eq_ok.1 hd'
  have hr0 := hr
  unfold gwrSelectBandwidth at hr
  rw [Res.bind_eq_ok'] at hr
  obtain ⟨u, -, hr⟩ := hr
  have hr := (Res.ok.inj hr).symm
  subst hr
  obtain ⟨h1, h2⟩ := optimize_function b0 b _ u (gwrCriterion c d' x y) (gwrCriterion_le c d' x y) [] hb
  refine ⟨?_, h2⟩
  obtain ⟨W, hW, hpd⟩ := criterion_finite c d' x y b (by rw [hdd]; exact crs_nonneg) h1.ne
  obtain ⟨a, ha, -⟩ := fit_of_posDef x y W 0 n sS sC (fun i _ _ => hpd i)
  refine ⟨a, ?_, ?_⟩
  · unfold gwrFit
    rw [hd', Res.bind, hW, Res.bind]
    exact ha
  · have ha' : fitCoreSerial x y W 0 n sS sC (fun _ => false) = .ok (a, false) := ha
    unfold gwrAutoFit
    rw [hd', Res.bind, hr0, Res.bind, hb, Res.bind, hW, Res.bind, ha', Res.bind]

/-- What it takes to get the weights of a location. -/
theorem weightVector_eq_ok {g : Bool} {l c : DynMat} {b : BandwidthWeight} {i : ℕ} {w : Fin n → ℝ} :
    weightVector ⟨g, some (l, c)⟩ b n i = .ok w ↔ i < l.nRows ∧ c.nRows = n ∧
      ∃ dist : Fin n → ℝ, (∀ j : Fin n, crsCalc g (l.val i) (c.val j) = .ok (dist j)) ∧ b.weight dist = .ok w := by
  unfold weightVector CRSDistance.distance
  simp only
  by_cases hi : i < l.nRows
  · rw [if_pos hi, Res.bind_eq_ok']
    constructor
    · rintro ⟨r, hr, h⟩
      rw [Res.bind_eq_ok'] at h
      obtain ⟨dist, hdist, h⟩ := h
      have hlen := mapRes_length hr
      rw [List.length_range] at hlen
      have hf := mapRes_eq_ok.1 hr
      unfold rowToVec at hdist
      split at hdist
      · rename_i hn
        refine ⟨hi, hlen.symm.trans hn, dist, fun j => ?_, h⟩
        have := (List.forall₂_iff_get.1 hf).2 j (by rw [List.length_range, ← hlen, hn]; exact j.isLt) (by rw [hn]; exact j.isLt)
        simp only [List.get_eq_getElem, List.getElem_range] at this
        rw [this, ← Res.ok.inj hdist]
      · cases hdist
    · rintro ⟨-, hn, dist, hdist, h⟩
      subst hn
      have hr : crsDistRow g l c i = .ok (List.ofFn dist) := by
        unfold crsDistRow
        rw [mapRes_eq_ok, List.forall₂_iff_get]
        refine ⟨by simp, fun j h1 h2 => ?_⟩
        simp only [List.get_eq_getElem, List.getElem_range, List.getElem_ofFn]
        exact hdist ⟨j, by simpa using h1⟩
      refine ⟨_, hr, ?_⟩
      unfold rowToVec
      rw [dif_pos (by simp), Res.bind]
      rw [← h]
      congr 1
      funext j
      simp
  · rw [if_neg hi]
    simp [Res.bind, hi]

theorem weightRows_eq_ok {g : Bool} {l c : DynMat} {b : BandwidthWeight} {W : Fin m → Fin n → ℝ} :
    weightRows ⟨g, some (l, c)⟩ b n m = .ok W ↔ ∀ i : Fin m, i.val < l.nRows ∧ c.nRows = n ∧
      ∃ dist : Fin n → ℝ, (∀ j : Fin n, crsCalc g (l.val i) (c.val j) = .ok (dist j)) ∧ b.weight dist = .ok (W i) := by
  unfold weightRows
  rw [Res.tabulate_eq_ok]
  exact forall_congr' fun i => weightVector_eq_ok

theorem boxcar_fixed {bw : ℝ} {dist : Fin n → ℝ} :
    (⟨bw, false, .Boxcar⟩ : BandwidthWeight).weight dist = .ok (fun j => if dist j < bw then 1 else 0) := by
  unfold BandwidthWeight.weight
  simp only [Bool.false_eq_true, if_false]
  refine kernelVec_eq_ok.2 fun j => ?_
  simp only [kernelAt, boxcarKernel, less, mul_one]

/-- Three points on a line, `D` apart. -/
def lineCoords (D : ℝ) : DynMat := ⟨3, 2, fun i k => if k = 0 then D * i else 0⟩

theorem line_dist (D : ℝ) (i j : ℕ) : euclid ((lineCoords D).val i) ((lineCoords D).val j) = |D| * |(j : ℝ) - i| := by
  unfold euclid lineCoords
  simp only [if_true, one_ne_zero, if_false, sub_self, mul_zero, add_zero]
  rw [Real.sqrt_mul_self_eq_abs, ← mul_sub, abs_mul]

/-- Boxcar weights on the line. -/
theorem line_weights (D bw : ℝ) :
    weightRows ⟨false, some (lineCoords D, lineCoords D)⟩ ⟨bw, false, .Boxcar⟩ 3 3 =
      .ok (fun i j : Fin 3 => if |D| * |((j : ℕ) : ℝ) - (i : ℕ)| < bw then 1 else 0) := by
  refine weightRows_eq_ok.2 fun i => ⟨i.isLt, rfl, fun j => |D| * |((j : ℕ) : ℝ) - (i : ℕ)|, fun j => ?_, boxcar_fixed⟩
  simp only [crsCalc, Bool.false_eq_true, if_false]
  rw [line_dist]

/-- Leaving one of the three example observations out still determines the coefficients. -/
theorem exX_loo (W : Fin 3 → Fin 3 → ℝ) (hW : ∀ i l, W i l = 1) (i : Fin 3) : (xtwx exX (cvWeight W i)).PosDef := by
  have h0 : ∀ l, 0 ≤ cvWeight W i l := by
    intro l
    simp only [cvWeight, Function.update_apply]
    split
    · exact le_rfl
    · rw [hW]; norm_num
  rw [gram_posDef_iff_determined _ _ h0]
  intro b hb
  have hp : ∀ l, l ≠ i → 0 < cvWeight W i l := by
    intro l hl
    simp only [cvWeight, Function.update_apply, if_neg hl, hW]
    norm_num
  have key : b 0 = 0 ∧ b 1 = 0 := by
    fin_cases i
    · have h1 := hb 1 (hp 1 (by decide)); have h2 := hb 2 (hp 2 (by decide))
      simp [exX, Fin.sum_univ_two] at h1 h2
      constructor <;> linarith
    · have h1 := hb 0 (hp 0 (by decide)); have h2 := hb 2 (hp 2 (by decide))
      simp [exX, Fin.sum_univ_two] at h1 h2
      constructor <;> linarith
    · have h1 := hb 0 (hp 0 (by decide)); have h2 := hb 1 (hp 1 (by decide))
      simp [exX, Fin.sum_univ_two] at h1 h2
      constructor <;> linarith
  funext j
  fin_cases j
  · exact key.1
  · exact key.2

/-- The hypotheses of C57 are met: cross-validated selection between 100 and 200 for three points on a line and a response
that follows the exact law `2 + 3 x`. -/
theorem ex_search : ∃ d' r b, bindLocations (CRSDistance.new false) (lineCoords 10) (lineCoords 10) = .ok d' ∧
    gwrSelectBandwidth .CV d' ⟨50, false, .Boxcar⟩ (some 100) (some 200) exX (exX *ᵥ ![2, 3]) = .ok r ∧ r.out = .ok b := by
  suffices h : ∃ b, (optimize ⟨50, false, .Boxcar⟩ 100 200 (fun _ b => (true, gwrCriterion .CV
      ⟨false, some (lineCoords 10, lineCoords 10)⟩ exX (exX *ᵥ ![2, 3]) b)) []).out = .ok b by
    obtain ⟨b, hb⟩ := h
    exact ⟨_, _, b, bindLocations_eq_ok.2 ⟨rfl, rfl, rfl⟩, rfl, hb⟩
  have hval : ∀ bw : ℝ, 100 ≤ bw → gwrCriterion .CV ⟨false, some (lineCoords 10, lineCoords 10)⟩ exX (exX *ᵥ ![2, 3])
      ⟨bw, false, .Boxcar⟩ = 0 := by
    intro bw hbw
    have hW : ∀ i j : Fin 3, (if |(10 : ℝ)| * |((j : ℕ) : ℝ) - (i : ℕ)| < bw then (1 : ℝ) else 0) = 1 := by
      intro i j
      rw [if_pos]
      have h1 : |((j : ℕ) : ℝ) - (i : ℕ)| ≤ 2 := by
        have hi : ((i : ℕ) : ℝ) ≤ 2 := by exact_mod_cast Nat.lt_succ_iff.1 i.isLt
        have hj : ((j : ℕ) : ℝ) ≤ 2 := by exact_mod_cast Nat.lt_succ_iff.1 j.isLt
        have hi0 : (0 : ℝ) ≤ (i : ℕ) := Nat.cast_nonneg _
        have hj0 : (0 : ℝ) ≤ (j : ℕ) := Nat.cast_nonneg _
        rw [abs_le]; constructor <;> linarith
      rw [abs_of_pos (by norm_num : (0 : ℝ) < 10)]
      linarith
    unfold gwrCriterion
    rw [line_weights]
    simp only
    have e : fitCoreCVSerial exX (exX *ᵥ ![2, 3]) _ 0 3 (fun _ => false) = _ :=
      serialFor_ok (fun _ => (![2, 3] : Fin 2 → ℝ)) _ 0 _ (fun _ _ => rfl) (fun i _ => localBeta_eq_ok.2 ⟨exX_loo _ hW i, by
        rw [← xtwx_mulVec, inv_mul_gram (exX_loo _ hW i)]⟩)
    rw [e]
    have hb := betaLoop_ok (nodup_workRange 3 0 3) e
    simp only [criterionCV, and_self, if_true]
    have hr : ∀ i, (List.foldl (fun s i => setRow i (![2, 3] : Fin 2 → ℝ) s) (0 : Matrix (Fin 3) (Fin 2) ℝ) (workRange 3 0 3)) i =
        ![2, 3] := by
      intro i
      have := (localBeta_eq_ok.1 (hb.1 i (mem_workRange.2 ⟨Nat.zero_le _, i.isLt⟩))).2
      rw [← xtwx_mulVec, inv_mul_gram (exX_loo _ hW i)] at this
      exact this
    have hrss : rss exX (exX *ᵥ ![2, 3])
        (List.foldl (fun s i => setRow i (![2, 3] : Fin 2 → ℝ) s) (0 : Matrix (Fin 3) (Fin 2) ℝ) (workRange 3 0 3)) = 0 := by
      unfold rss
      refine Finset.sum_eq_zero fun i _ => ?_
      have : (exX *ᵥ ![2, 3]) i - fitted exX
          (List.foldl (fun s i => setRow i (![2, 3] : Fin 2 → ℝ) s) (0 : Matrix (Fin 3) (Fin 2) ℝ) (workRange 3 0 3)) i = 0 := by
        unfold fitted
        rw [hr i, mulVec_eq]
        rw [sub_eq_zero]
        exact Finset.sum_congr rfl fun j _ => mul_comm _ _
      rw [this, mul_zero]
    rw [hrss, finiteOrMax, abs_zero]
    split <;> [rfl; (rename_i h; exact absurd ((by norm_num : (0 : ℝ) ≤ 1000).trans dblMax_big) h)]
  have hb := goldenR_bounds
  generalize ho : (fun (_ : ℕ) b => (true, gwrCriterion .CV ⟨false, some (lineCoords 10, lineCoords 10)⟩ exX (exX *ᵥ ![2, 3]) b)) = o
  have hf1 : (goldenInit ⟨50, false, .Boxcar⟩ 100 200 o []).f1 = 0 := by
    rw [← ho]
    simp only [goldenInit, Bool.false_eq_true, if_false]
    exact hval _ (by nlinarith [hb.1])
  have hmax : (0 : ℝ) < dblMax := lt_of_lt_of_le (by norm_num) dblMax_big
  rcases optimize_cases ⟨50, false, .Boxcar⟩ 100 200 o [] with ⟨-, h⟩ | ⟨-, -, h1, -, -⟩ | ⟨-, -, -, -, -, h⟩ | ⟨-, -, -, -, h⟩
  · exact ⟨_, by rw [h]⟩
  · rw [hf1] at h1; exact absurd h1 hmax.ne
  · exact ⟨_, by rw [h]⟩
  · exact ⟨_, by rw [h]⟩

example : ∃ b a, gwrAutoFit .CV (CRSDistance.new false) ⟨50, false, .Boxcar⟩ (some 100) (some 200) (lineCoords 10) exX
    (exX *ᵥ ![2, 3]) true true = .ok (b, a) := by
  obtain ⟨d', r, b, h1, h2, h3⟩ := ex_search
  obtain ⟨⟨a, -, ha⟩, -⟩ := C57_selected_bandwidth_fits .CV _ _ b _ _ _ _ _ true true d' r h1 h2 h3
  exact ⟨b, a, ha⟩

/-- The hypothesis of C50 is met: a fit on the line. -/
example : ∃ a, gwrFit (CRSDistance.new false) ⟨100, false, .Boxcar⟩ (lineCoords 10) exX ![1, 3, 2] true true NoStop =
      .ok (a, false) ∧
    gwrPredict (CRSDistance.new false) ⟨100, false, .Boxcar⟩ (lineCoords 10) (lineCoords 10) 3 exX ![1, 3, 2] NoStop =
      .ok (a.betas, false) := by
  have hp : ∀ i l : Fin 3, (0 : ℝ) < if |(10 : ℝ)| * |((l : ℕ) : ℝ) - (i : ℕ)| < 100 then (1 : ℝ) else 0 := by
    intro i l; fin_cases i <;> fin_cases l <;> norm_num [abs_of_pos, abs_of_neg]
  obtain ⟨a, ha⟩ := (C21_fit_succeeds_iff exX ![1, 3, 2] _ (fun i l => (hp i l).le) true true).1.2
    (fun i => exX_determined _ (hp i))
  have h : gwrFit (CRSDistance.new false) ⟨100, false, .Boxcar⟩ (lineCoords 10) exX ![1, 3, 2] true true NoStop = .ok (a, false) := by
    unfold gwrFit
    rw [bindLocations_eq_ok.2 ⟨rfl, rfl, rfl⟩, Res.bind]
    simp only [CRSDistance.new]
    rw [line_weights, Res.bind]
    exact ha
  exact ⟨a, h, C50_predict_at_data_eq_fit _ _ _ _ _ _ _ _ h⟩

/-- **C57 (negation in parallel mode).** Three isolated points, boxcar kernel, bounds 0 and 1. For every number of threads and
all schedules the parallel search returns a bandwidth with which every fit throws; the serial search reports the failure. -/
theorem C57_parallel_selects_unusable (T : ℕ) (sched : ℕ → List (OmpEv (Fin 3) (Fin T))) (sS sC : Bool) :
    ∃ b, (gwrSelectBandwidthOmp .CV ⟨false, some (lineCoords 10, lineCoords 10)⟩ ⟨1, false, .Boxcar⟩ 0 1 exX ![1, 3, 2] sched).out =
        .ok b ∧
      gwrFit (CRSDistance.new false) b (lineCoords 10) exX ![1, 3, 2] sS sC NoStop = .throw .singular ∧
      ∃ r, gwrSelectBandwidth .CV ⟨false, some (lineCoords 10, lineCoords 10)⟩ ⟨1, false, .Boxcar⟩ (some 0) (some 1) exX ![1, 3, 2] =
        .ok r ∧ r.out = .throw .runtime := by
  obtain ⟨g1, g2⟩ := goldenR_bounds
  have hiso : ∀ bw : ℝ, 0 < bw → bw < 1 →
      (fun i j : Fin 3 => if |(10 : ℝ)| * |((j : ℕ) : ℝ) - (i : ℕ)| < bw then (1 : ℝ) else 0) = isoW := by
    intro bw h0 h1
    funext i j
    unfold isoW
    rw [abs_of_pos (by norm_num : (0 : ℝ) < 10)]
    fin_cases i <;> fin_cases j <;> norm_num <;> linarith
  have hW : ∀ bw : ℝ, 0 < bw → bw < 1 →
      weightRows ⟨false, some (lineCoords 10, lineCoords 10)⟩ ⟨bw, false, .Boxcar⟩ 3 3 = .ok isoW := fun bw h0 h1 => by
    rw [line_weights, hiso bw h0 h1]
  have hpar : ∀ evs (bw : ℝ), 0 < bw → bw < 1 → gwrCriterionOmp .CV ⟨false, some (lineCoords 10, lineCoords 10)⟩ exX ![1, 3, 2]
      (evs : List (OmpEv (Fin 3) (Fin T))) ⟨bw, false, .Boxcar⟩ = 14 := fun evs bw h0 h1 => by
    rw [gwrCriterionOmp_rows _ (hW bw h0 h1)]
    exact (C28_singular_criteria_differ evs).2.1
  have hser : ∀ bw : ℝ, 0 < bw → bw < 1 → gwrCriterion .CV ⟨false, some (lineCoords 10, lineCoords 10)⟩ exX ![1, 3, 2]
      ⟨bw, false, .Boxcar⟩ = dblMax := fun bw h0 h1 => by
    unfold gwrCriterion
    rw [hW bw h0 h1]
    exact (C28_singular_criteria_differ (T := 1) []).1
  have hmax : (14 : ℝ) < dblMax := lt_of_lt_of_le (by norm_num) dblMax_big
  refine ⟨⟨1 - goldenR, false, .Boxcar⟩, ?_, ?_, ?_⟩
  · unfold gwrSelectBandwidthOmp
    generalize ho : (fun j b => (true, gwrCriterionOmp .CV ⟨false, some (lineCoords 10, lineCoords 10)⟩ exX ![1, 3, 2] (sched j) b)) = o
    have e1 : (goldenInit ⟨1, false, .Boxcar⟩ 0 1 o []).f1 = 14 := by
      rw [← ho]
      simp only [goldenInit, Bool.false_eq_true, if_false]
      exact hpar _ _ (by linarith) (by linarith)
    have e2 : (goldenInit ⟨1, false, .Boxcar⟩ 0 1 o []).f2 = 14 := by
      rw [← ho]
      simp only [goldenInit, Bool.false_eq_true, if_false]
      exact hpar _ _ (by linarith) (by linarith)
    have ex : (goldenInit ⟨1, false, .Boxcar⟩ 0 1 o []).x2 = 1 - goldenR := by
      simp only [goldenInit, Bool.false_eq_true, if_false]; ring
    have s1 : (goldenInit ⟨1, false, .Boxcar⟩ 0 1 o []).s1 = true ∧ (goldenInit ⟨1, false, .Boxcar⟩ 0 1 o []).s2 = true := by
      rw [← ho]; exact ⟨rfl, rfl⟩
    have hloop : goldenLoop ⟨1, false, .Boxcar⟩ o (goldenStart ⟨1, false, .Boxcar⟩ 0 1 o []) =
        goldenStart ⟨1, false, .Boxcar⟩ 0 1 o [] := by
      rw [goldenLoop, if_neg]
      rintro ⟨-, -, -, h, -⟩
      have : (goldenStart ⟨1, false, .Boxcar⟩ 0 1 o []).f2 - (goldenStart ⟨1, false, .Boxcar⟩ 0 1 o []).f1 = 0 := by
        simp only [goldenStart]; rw [e1, e2]; ring
      rw [this] at h
      norm_num at h
    rcases optimize_cases ⟨1, false, .Boxcar⟩ 0 1 o [] with ⟨h, -⟩ | ⟨-, -, h, -, -⟩ | ⟨-, -, -, -, -, h⟩ | ⟨-, -, -, h, -⟩
    · exact absurd s1 h
    · rw [e1] at h; exact absurd h hmax.ne
    · rw [h, hloop]
      have hx : (goldenStart ⟨1, false, .Boxcar⟩ 0 1 o []).xopt = 1 - goldenR := by
        unfold GS.xopt
        rw [if_neg]
        · exact ex
        · have e1' : (goldenStart ⟨1, false, .Boxcar⟩ 0 1 o []).f1 = 14 := e1
          have e2' : (goldenStart ⟨1, false, .Boxcar⟩ 0 1 o []).f2 = 14 := e2
          rw [e1', e2']; exact lt_irrefl _
      simp only [hx]
    · rw [hloop] at h; exact absurd s1 h
  · unfold gwrFit
    rw [bindLocations_eq_ok.2 ⟨rfl, rfl, rfl⟩, Res.bind]
    simp only [CRSDistance.new]
    rw [hW _ (by linarith) (by linarith), Res.bind]
    refine (C21_fit_succeeds_iff exX ![1, 3, 2] isoW (fun i l => by unfold isoW; split <;> norm_num) sS sC).2 ⟨0, ?_⟩
    rw [← gram_posDef_iff_determined _ _ (fun l => by unfold isoW; split <;> norm_num)]
    exact iso_singular _ 0 (fun l hl => by simp [isoW, hl])
  · refine ⟨_, rfl, ?_⟩
    simp only [Option.getD]
    generalize ho : (fun (_ : ℕ) b => (true, gwrCriterion .CV ⟨false, some (lineCoords 10, lineCoords 10)⟩ exX ![1, 3, 2] b)) = o
    have e1 : (goldenInit ⟨1, false, .Boxcar⟩ 0 1 o []).f1 = dblMax := by
      rw [← ho]
      simp only [goldenInit, Bool.false_eq_true, if_false]
      exact hser _ (by linarith) (by linarith)
    have e2 : (goldenInit ⟨1, false, .Boxcar⟩ 0 1 o []).f2 = dblMax := by
      rw [← ho]
      simp only [goldenInit, Bool.false_eq_true, if_false]
      exact hser _ (by linarith) (by linarith)
    rcases optimize_cases ⟨1, false, .Boxcar⟩ 0 1 o [] with ⟨h, -⟩ | ⟨-, -, -, -, h⟩ | ⟨-, -, h, -⟩ | ⟨-, -, h, -⟩
    · exact absurd (by rw [← ho]; exact ⟨rfl, rfl⟩) h
    · rw [h]
    · exact absurd ⟨e1, e2⟩ h
    · exact absurd ⟨e1, e2⟩ h

end Verif.Props

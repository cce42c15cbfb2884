import Verif.Props.SmallAdaptive
import Verif.Props.Reordering
import Verif.Props.RidgeRunGeneral

/-!
# C131, C111 and C104: failing weights and predictions elsewhere

Adaptive bandwidths of less than one neighbour in space-time, density and ridge regression and in principal components; predictions of robust regression
at new places; candidates of the space-time bandwidth search whose weights are not numbers.
-/

namespace Verif.Props
open Verif Verif.Model Verif.Spec Matrix Classical

variable {n k m d : ℕ}

theorem tabulate_some_throw {α : Type*} {e : Err} : ∀ {n : ℕ} {f : Fin n → Res α}, (∀ i, (∃ v, f i = .ok v) ∨ f i = .throw e) → (∃ i, f i = .throw e) →
    Res.tabulate n f = .throw e
  | 0, _, _, ⟨i, _⟩ => i.elim0
  | n + 1, f, h, ⟨i, hi⟩ => by
    rw [Res.tabulate]
    rcases h 0 with ⟨v, hv⟩ | hv
    · rw [hv]
      have : ∃ j : Fin n, f j.succ = .throw e := by
        cases i using Fin.cases with
        | zero => rw [hv] at hi; cases hi
        | succ j => exact ⟨j, hi⟩
      simp only [Res.bind, tabulate_some_throw (f := fun j : Fin n => f j.succ) (fun j => h j.succ) this]
    · rw [hv]; rfl

/-- **C131 (density regression).** One of the dimensions has an adaptive bandwidth between 0 and 1, the others such a bandwidth or a positive fixed one: in
serial mode the fit throws; with several threads, under any schedule, the program ends. -/
theorem C131_density (bws : Fin d → BandwidthWeight) (hb : ∀ q, 0 < (bws q).mBandwidth ∧ ((bws q).mAdaptive = true → (bws q).mBandwidth < 1))
    (hs : ∃ q, (bws q).mAdaptive = true) (hn : 0 < n) (coords : Matrix (Fin n) (Fin d) ℝ) (x : Matrix (Fin n) (Fin k) ℝ) (y : Fin n → ℝ) (sS : Bool) :
    gwdrRun .serial bws coords x y sS = .throw .bounds ∧
    ∀ {T : ℕ} (evs : List (OmpEv (Fin n) (Fin T))), gwdrRun (.omp evs) bws coords x y sS = .ub := by
  have hw : gwdrWeights bws coords = .throw .bounds := by
    refine tabulate_all_throw hn fun i => ?_
    have hax : ∀ q, (bws q).mAdaptive = true → gwdrWeightVector (bws q) (fun l => coords l q) i = .throw .bounds := fun q ha => by
      rw [gwdrWeightVector_eq]
      unfold BandwidthWeight.weight
      rw [if_pos ha, radius_below_one (hb q).1 ((hb q).2 ha) hn]
      rfl
    have : Res.tabulate d (fun q => gwdrWeightVector (bws q) (fun l => coords l q) i) = .throw .bounds := by
      refine tabulate_some_throw (fun q => ?_) (hs.imp fun q ha => hax q ha)
      cases ha : (bws q).mAdaptive with
      | true => exact .inr (hax q ha)
      | false =>
        left
        rw [gwdrWeightVector_eq]
        have e : bws q = ⟨(bws q).mBandwidth, false, (bws q).mKernel⟩ := by rw [← ha]
        rw [e, C97_fixed_kernel_formula _ _ (hb q).1]
        exact ⟨_, rfl⟩
    rw [this]; rfl
  exact ⟨by simp only [gwdrRun, gwdrFinish, hw, gwdrEscape, Res.bind], fun evs => by simp only [gwdrRun, gwdrFinish, hw, gwdrEscape, Res.bind]⟩

theorem stRows_below_one {geo : Bool} {d d' : CRSSTDistance} (hd : STConfig geo d) {coords : DynMat} (hc : FitsData coords n) {τ : Fin n → ℝ}
    {dist : Fin n → Fin n → ℝ} (h : IsSpaceTimeDistance geo coords τ d.mLambda (stFactor d) dist)
    (hd' : gtwrBind d coords (List.ofFn τ) = .ok d') {b : BandwidthWeight} (ha : b.mAdaptive = true) (h0 : 0 < b.mBandwidth) (h1 : b.mBandwidth < 1)
    (hn : 0 < n) : stWeightRows d' b n n = .throw .bounds := by
  obtain ⟨d1, e1, h2⟩ := st_distance_any hd hc h
  cases Res.ok.inj (hd'.symm.trans e1)
  refine tabulate_all_throw hn fun i => ?_
  unfold stWeightVector
  rw [h2, Res.bind, rowToVec_ofFn, Res.bind]
  unfold BandwidthWeight.weight
  rw [if_pos ha, radius_below_one h0 h1 hn]
  rfl

/-- **C131 (space-time regression).** With an adaptive bandwidth between 0 and 1 the fit throws in serial mode; with several threads, under any schedule,
the program ends. -/
theorem C131_spacetime (geo : Bool) (d : CRSSTDistance) (hd : STConfig geo d) (coords : DynMat) (hc : FitsData coords n) (τ : Fin n → ℝ)
    (dist : Fin n → Fin n → ℝ) (h : IsSpaceTimeDistance geo coords τ d.mLambda (stFactor d) dist) (b : BandwidthWeight) (ha : b.mAdaptive = true)
    (h0 : 0 < b.mBandwidth) (h1 : b.mBandwidth < 1) (hn : 0 < n) (x : Matrix (Fin n) (Fin k) ℝ) (y : Fin n → ℝ) (sS : Bool) :
    gtwrRunEx none false .serial d b coords (List.ofFn τ) x y sS = .throw .bounds ∧
    ∀ {T : ℕ} (evs : List (OmpEv (Fin n) (Fin T))), gtwrRunEx none false (.omp evs) d b coords (List.ofFn τ) x y sS = .ub := by
  obtain ⟨d', hd', -⟩ := st_distance_any hd hc h
  have hw := stRows_below_one hd hc h hd' ha h0 h1 hn
  have key : ∀ ex : Exec n, gtwrRunEx none false ex d b coords (List.ofFn τ) x y sS = (gtwrFinish ex d' b x y sS).bind fun g => .ok (d.mLambda, g) := by
    intro ex
    simp only [gtwrRunEx, gtwrFinishLambda, gtwrLambda, Bool.false_eq_true, if_false, hd', Res.bind]
  exact ⟨by rw [key]; simp only [gtwrFinish, hw, summaryEscape, Res.bind], fun evs => by rw [key]; simp only [gtwrFinish, hw, summaryEscape, Res.bind]⟩

/-- **C131 (ridge regression and principal components).** With an adaptive bandwidth between 0 and 1 a ridge fit throws in serial mode, and ends the program
with several threads; principal components throw. -/
theorem C131_ridge_components (geo : Bool) (p : Option (DynMat × DynMat)) (b : BandwidthWeight) (ha : b.mAdaptive = true) (h0 : 0 < b.mBandwidth)
    (h1 : b.mBandwidth < 1) (coords : DynMat) (hc : FitsData coords (n + 1)) (dist : Fin (n + 1) → Fin (n + 1) → ℝ)
    (hd : IsMapDistance geo coords coords dist) (x : Matrix (Fin (n + 1)) (Fin k) ℝ) (y : Fin (n + 1) → ℝ) :
    (∀ sv cfg, lcrRunIn sv cfg .serial ⟨geo, p⟩ b coords x y = .throw .bounds) ∧
    (∀ sv cfg {T : ℕ} (evs : List (OmpEv (Fin (n + 1)) (Fin T))), lcrRunIn sv cfg (.omp evs) ⟨geo, p⟩ b coords x y = .ub) ∧
    ∀ svd K, gwpcaRun svd ⟨geo, p⟩ b coords x K = .throw .bounds := by
  have hb : bindLocations ⟨geo, p⟩ coords coords = .ok ⟨geo, some (coords, coords)⟩ := bindLocations_eq_ok.2 ⟨hc.1, hc.1, rfl⟩
  have hw : weightRows ⟨geo, some (coords, coords)⟩ b (n + 1) (n + 1) = .throw .bounds :=
    weightRows_below_one hc.2 hc.2 hd ha h0 h1 (Nat.succ_pos _) (Nat.succ_pos _)
  refine ⟨fun sv cfg => ?_, fun sv cfg T evs => ?_, fun svd K => ?_⟩
  · simp only [lcrRunIn, lcrFinishIn, hb, hw, Res.bind]
  · simp only [lcrRunIn, lcrFinishIn, hb, hw, Res.bind]
  · simp only [gwpcaRun, hb, hw, Res.bind]

/-- **C111 (prediction elsewhere).** At any places: prediction with a robust model succeeds exactly if at every place the observations of positive weight
determine the coefficients, and returns the kernel weighted least squares coefficients of that place, without robust weights. -/
theorem C111_prediction (geo : Bool) (par : Option (DynMat × DynMat)) (b : BandwidthWeight) (locations coords : DynMat) (hl : FitsData locations m)
    (hc : FitsData coords n) (hn : 0 < n) (dist w : Fin m → Fin n → ℝ) (hd : IsMapDistance geo locations coords dist) (hb : UsableRadius b dist)
    (hw : IsKernelWeight b dist w) (x : Matrix (Fin n) (Fin k) ℝ) (y : Fin n → ℝ) :
    ((∀ i, Determined x (w i)) → ∃ B, robustPredict ⟨geo, par⟩ b locations coords m x y = .ok (B, false) ∧ ∀ i, IsWLS x y (w i) (B i)) ∧
    ((∃ i, ¬ Determined x (w i)) → ∃ e, robustPredict ⟨geo, par⟩ b locations coords m x y = .throw e) := by
  obtain ⟨c1, c2⟩ := C118_predict .serial trivial geo par b locations coords hl hc hn dist w hd hb hw x y
  obtain ⟨W, h1, -, -⟩ := kernelRows hl.2 hc.2 hd hb fun _ => hn
  have hbind : bindLocations ⟨geo, par⟩ locations coords = .ok ⟨geo, some (locations, coords)⟩ := bindLocations_eq_ok.2 ⟨hl.1, hc.1, rfl⟩
  have hr : robustPredict ⟨geo, par⟩ b locations coords m x y = predictSerial x y W fun _ => false := by
    simp only [robustPredict, gwrPredict, hbind, h1, Res.bind]
  have hg : gwrPredictRun .serial ⟨geo, par⟩ b locations coords x y = (predictSerial x y W fun _ => false).bind fun p => .ok p.1 := by
    simp only [gwrPredictRun, hbind, h1, summaryEscape, Res.bind]
  rw [hr]
  rw [hg] at c1 c2
  constructor
  · intro h
    obtain ⟨B, h2, h3⟩ := c1 h
    obtain ⟨⟨B', t⟩, h4, h5⟩ := Res.bind_eq_ok'.1 h2
    cases Res.ok.inj h5
    have ht : t = false := serialFor_nostop _ _ _ h4
    subst ht
    exact ⟨B', h4, h3⟩
  · intro h
    obtain ⟨e, he⟩ := c2 h
    cases h4 : predictSerial x y W fun _ => false with
    | throw e' => exact ⟨e', rfl⟩
    | _ => rw [h4] at he; cases he

theorem weight_same_radius {b : BandwidthWeight} {v : Fin n → ℝ} {r : ℝ} (hn : b.mAdaptive = true → n < 2147483648) (h : IsRadius b v r) :
    b.weight v = BandwidthWeight.weight ⟨r, false, b.mKernel⟩ v := by
  obtain ⟨bw, ad, kernel⟩ := b
  unfold IsRadius at h
  cases ad with
  | false =>
    simp only [Bool.false_eq_true, if_false] at h
    rw [h]
  | true =>
    simp only [if_true] at h
    rcases h with ⟨q, s, t, t', h1, h2, rfl, h3, h4, h5, h6, rfl⟩ | ⟨h1, t, h2, rfl⟩
    · exact C04_adaptive_fractional kernel v q s t t' h1 h2 (by have := hn rfl; omega) h3 h4 h5 h6
    · obtain ⟨i, -⟩ := h2.1
      exact C04_adaptive_large kernel v bw t i.pos h1 h2

theorem weight_radius_zero {b : BandwidthWeight} {v : Fin n → ℝ} (hn : b.mAdaptive = true → n < 2147483648) (h : IsRadius b v 0)
    (hk : b.mKernel ≠ .Boxcar) (i : Fin n) (hi : v i = 0) : b.weight v = .nonfinite := by
  rw [weight_same_radius hn h]
  show kernelVec b.mKernel v 0 = .nonfinite
  rcases kernelVec_kind b.mKernel v 0 with ⟨w, hw⟩ | hw
  · exfalso
    have := Res.tabulate_eq_ok.1 hw i
    rw [hi] at this
    cases hb : b.mKernel with
    | Boxcar => exact hk hb
    | _ => rw [hb] at this; simp [kernelAt, gaussianKernel, exponentialKernel, bisquareKernel, tricubeKernel] at this
  · exact hw

/-- **C104 (candidates without numbers).** A candidate of the bandwidth search whose radius is 0 at some observation (so many observations coincide in space
and time) gets the worst value, for both criteria and every kernel but the box. -/
theorem C104_radius_zero_is_worst (geo : Bool) (d d' : CRSSTDistance) (hd : STConfig geo d) (coords : DynMat) (hc : FitsData coords n) (τ : Fin n → ℝ)
    (dist : Fin n → Fin n → ℝ) (h : IsSpaceTimeDistance geo coords τ d.mLambda (stFactor d) dist) (hd' : gtwrBind d coords (List.ofFn τ) = .ok d')
    (b : BandwidthWeight) (hb : b.mAdaptive = true → 1 ≤ b.mBandwidth ∧ n < 2147483648) (hk : b.mKernel ≠ .Boxcar)
    (hz : ∃ i, IsRadius b (dist i) 0) (c : Crit) (x : Matrix (Fin n) (Fin k) ℝ) (y : Fin n → ℝ) :
    gtwrCriterion c d' x y b = .ok dblMax ∧ gtwrScore c d' x y b = dblMax := by
  obtain ⟨d1, e1, h2⟩ := st_distance_any hd hc h
  cases Res.ok.inj (hd'.symm.trans e1)
  have hrow : ∀ i : Fin n, stWeightVector d' b n i = b.weight (dist i) := fun i => by
    unfold stWeightVector
    rw [h2, Res.bind, rowToVec_ofFn, Res.bind]
  have hself : ∀ i, dist i i = 0 := fun i => by
    obtain ⟨sd, hm, hs⟩ := h
    rw [hs i i, if_neg (fun h => lt_irrefl _ h.1), map_diag hm i]; simp
  have hw : stWeightRows d' b n n = .nonfinite := by
    obtain ⟨i, hi⟩ := hz
    have hni := weight_radius_zero (fun ha => (hb ha).2) hi hk i (hself i)
    rcases tabulate_kind (n := n) (f := fun i : Fin n => stWeightVector d' b n i) (fun j => by rw [hrow]; exact weight_kind hni) with ⟨v, hv⟩ | hv
    · have := Res.tabulate_eq_ok.1 hv i
      simp only [hrow, hni] at this
      cases this
    · exact hv
  have hcr : gtwrCriterion c d' x y b = .ok dblMax := by unfold gtwrCriterion; rw [hw]
  exact ⟨hcr, by unfold gtwrScore; rw [hcr]⟩

/-! ### Cases -/

/-- C131: two dimensions, half a neighbour in the second. -/
example (y : Fin 5 → ℝ) := C131_density (n := 5) ![⟨2, false, .Gaussian⟩, ⟨1 / 2, true, .Boxcar⟩]
  (fun q => by fin_cases q <;> norm_num) ⟨1, rfl⟩ (by norm_num) (fun i q => (i : ℕ) + (q : ℕ)) (ones 5) y true

/-- C131: two observations at the same time, λ = 1/2. -/
example := C131_spacetime (n := 2) false (exST (1 / 2)) ⟨⟨_, rfl, rfl⟩, ⟨_, rfl⟩⟩ unitPair ⟨rfl, rfl⟩ (fun _ => 0) (fun i j => 1 / 2 * |((i : ℕ) : ℝ) - (j : ℕ)|)
  ⟨_, unitPair_distance, fun i j => by simp [exST, CRSSTDistance.new]⟩ ⟨1 / 2, true, .Bisquare⟩ rfl (by norm_num) (by norm_num) two_pos (ones 2) ![0, 1] true

/-- C131: three points of a line. -/
example := C131_ridge_components (n := 2) false none ⟨1 / 2, true, .Bisquare⟩ rfl (by norm_num) (by norm_num) (lineCoords 1) ⟨rfl, rfl⟩ _
  (line_mapDistance 1) exX ![1, 3, 2]

/-- C111: predictions at the three points of a line two apart from five observations on it. -/
example (y : Fin 5 → ℝ) : ∃ B : Matrix (Fin 3) (Fin 1) ℝ,
    robustPredict ⟨false, none⟩ ⟨(5 : ℕ), false, .Gaussian⟩ (lineCoords 2) (linePoints 5) 3 (ones 5) y = .ok (B, false) ∧
    ∀ i : Fin 3, IsWLS (ones 5) y (fun l => kernelFormula .Gaussian (5 : ℕ) (plane ((lineCoords 2).val i) ((linePoints 5).val l))) (B i) := by
  refine (C111_prediction (m := 3) (n := 5) false none ⟨(5 : ℕ), false, .Gaussian⟩ (lineCoords 2) (linePoints 5) ⟨rfl, rfl⟩ ⟨rfl, rfl⟩ (by norm_num)
    (fun i l => plane ((lineCoords 2).val i) ((linePoints 5).val l)) _ (fun _ _ => rfl) (usable_fixed (by norm_num) _ _)
    (fun i => ⟨(5 : ℕ), by simp [IsRadius], fun l => rfl⟩) (ones 5) y).1 fun i => ?_
  exact ones_det (fun l => (Real.exp_pos _).le) ⟨0, Real.exp_pos _⟩

/-- C104: two observations at the same time and λ = 0, so that both are at distance 0; a bandwidth of both neighbours. -/
example (c : Crit) : ∃ d', gtwrBind (exST 0) unitPair (List.ofFn fun _ : Fin 2 => 0) = .ok d' ∧
    gtwrScore c d' (ones 2) ![0, 1] ⟨2, true, .Bisquare⟩ = dblMax := by
  have hst : IsSpaceTimeDistance (n := 2) false unitPair (fun _ => 0) (exST 0).mLambda (stFactor (exST 0)) fun _ _ => 0 :=
    ⟨_, unitPair_distance, fun i j => by simp [exST, CRSSTDistance.new]⟩
  have hcfg : STConfig false (exST 0) := ⟨⟨_, rfl, rfl⟩, ⟨_, rfl⟩⟩
  obtain ⟨d', hd', -⟩ := st_distance_any hcfg ⟨rfl, rfl⟩ hst
  refine ⟨d', hd', (C104_radius_zero_is_worst (n := 2) false _ d' hcfg unitPair ⟨rfl, rfl⟩ _ _ hst hd' ⟨2, true, .Bisquare⟩
    (fun _ => ⟨by norm_num, by norm_num⟩) (by simp) ⟨0, ?_⟩ c _ _).2⟩
  unfold IsRadius
  rw [if_pos rfl]
  exact .inr ⟨by norm_num, 0, ⟨⟨0, rfl⟩, fun _ => le_rfl⟩, by norm_num⟩

end Verif.Props

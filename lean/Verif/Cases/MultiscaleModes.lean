import Verif.Props.ModesAgree
import Verif.Cases.Ridge

/-! # Concrete cases for the theorems of `Props/MultiscaleModes` and `Props/ModesAgree` -/

namespace Verif.Cases
open Verif Verif.Model Verif.Spec Verif.Props Matrix Classical

/-- Two predictors on three places; the bandwidth of the first predictor is searched between 5 and 10, that of the second one is given. -/
noncomputable def msLine : MgwrSetup 3 2 :=
  { coords := lineCoords 1, x := exX, y := exX *ᵥ ![2, 3], hasIntercept := true, centred := fun _ => false,
    dist0 := ⟨false, none⟩, bw0 := ⟨1, false, .Gaussian⟩, dist := fun _ => ⟨false, none⟩,
    bw := ![⟨7, false, .Gaussian⟩, ⟨2, false, .Gaussian⟩],
    init := ![.Initial, .Specified], approach := fun _ => .CV, lower := some 5, upper := some 10, adaptiveLower := 10,
    threshold := fun _ => 1, retry := 5, critType := .CVR, critThreshold := 1, maxIter := 1 }

/-- A search whose first value is 0 succeeds, and its bandwidth is at least the lower bound. -/
theorem search_finds (b0 : BandwidthWeight) (hb : b0.mAdaptive = false) (l u : ℝ) (hlu : l ≤ u) (o : Oracle) (ho : ∀ j b, (o j b).1 = true)
    (hf : (o 0 { b0 with mBandwidth := l + goldenR * (u - l) }).2 = 0) :
    ∃ b, (optimize b0 l u o []).out = .ok b ∧ l ≤ b.mBandwidth ∧ b.mAdaptive = false ∧ b.mKernel = b0.mKernel := by
  suffices h : ∃ b, (optimize b0 l u o []).out = .ok b by
    obtain ⟨b, h⟩ := h
    obtain ⟨e, he, hx, -⟩ := C14_returns_best_evaluated _ _ _ _ _ _ h fun e he => by
      obtain ⟨j, hj⟩ := evals_oracle _ _ _ _ _ e he
      rw [← ho j { b0 with mBandwidth := e.x }, hj]
    have h2 := C17_kernel_kind_kept _ _ _ _ _ _ h
    exact ⟨b, h, hx ▸ ((C15_fixed_within_bounds b0 hb _ _ hlu _ _).1 e he).1, h2.2.trans hb, h2.1⟩
  have hf1 : (goldenInit b0 l u o []).f1 = 0 := by
    simpa [goldenInit, hb] using hf
  have hmax : (0 : ℝ) < dblMax := lt_of_lt_of_le (by norm_num) dblMax_big
  rcases optimize_cases b0 l u o [] with ⟨-, h⟩ | ⟨-, -, h1, -, -⟩ | ⟨-, -, -, -, -, h⟩ | ⟨-, -, -, -, h⟩
  · exact ⟨_, by rw [h]⟩
  · rw [hf1] at h1; exact absurd h1 hmax.ne
  · exact ⟨_, by rw [h]⟩
  · exact ⟨_, by rw [h]⟩

/-- With positive weights the second predictor, and the first one, determines its coefficient. -/
theorem exX_col_determined (i : Fin 2) {w : Fin 3 → ℝ} (hw : ∀ l, 0 < w l) : Determined (colOf exX i) w := fun b hb => by
  have := hb 1 (hw 1)
  funext j
  rw [Subsingleton.elim j 0]
  fin_cases i <;> simpa [colOf, exX] using this

theorem fitVarIn_line {ex : Exec 3} (hex : ex.Valid) {b : ℝ} (hb : 0 < b) (i : Fin 2) (y : Fin 3 → ℝ) :
    ∃ r, fitVarIn ex ⟨false, some (lineCoords 1, lineCoords 1)⟩ ⟨b, false, .Gaussian⟩ (colOf exX i) y = .ok r := by
  have hc : FitsData (lineCoords 1) 3 := ⟨rfl, rfl⟩
  obtain ⟨W, hr, hW, h0⟩ := kernelRows hc.2 hc.2 (line_mapDistance 1)
    (usable_fixed (m := 3) (n := 3) hb .Gaussian _) id
  unfold fitVarIn
  rw [hr]
  have hs : summaryEscape ex (.ok W) = .ok W := by cases ex <;> rfl
  rw [hs]
  simp only [Res.bind]
  rw [fitVarCoreIn_eq _ _ _ hex, fitVarSerial_eq _ _ _ (fun _ => rfl), if_pos]
  · exact ⟨_, rfl⟩
  · intro j
    refine (gram_posDef_iff_determined _ _ (h0 j)).2 (exX_col_determined i fun l => ?_)
    obtain ⟨r, -, e⟩ := hW j
    rw [e]; exact Real.exp_pos _

/-- Leaving one place out, a constant response is predicted exactly by the intercept. -/
theorem const_loo {bw : ℝ} {dist w : Fin 3 → Fin 3 → ℝ} (hw : IsKernelWeight ⟨bw, false, .Gaussian⟩ dist w) (c : ℝ) :
    IsLooScore (colOf exX 0) (colOf exX 0 *ᵥ fun _ => c) w 0 := by
  have hpos : ∀ i l, 0 < w i l := fun i l => by
    obtain ⟨r, -, e⟩ := hw i
    rw [e]; exact Real.exp_pos _
  refine ⟨fun _ _ => c, fun i => wls_exact (fun l => by split; exacts [le_rfl, (hpos i l).le]) (fun b hb => ?_) _, ?_⟩
  · have hne : i + 1 ≠ i := by fin_cases i <;> decide
    have := hb (i + 1) (by rw [if_neg hne]; exact hpos i _)
    funext j
    rw [Subsingleton.elim j 0]
    fin_cases i <;> simpa [colOf, exX] using this
  · simp [residualSS, mulVec, dotProduct]

theorem msLine_run (md : MgwrModes 3 2) (hv : md.Valid) : ∃ o, mgwrRunIn msLine true md = .ok o := by
  have hc : FitsData (lineCoords 1) 3 := ⟨rfl, rfl⟩
  have hx : centrePredictors msLine.hasIntercept msLine.centred msLine.x = exX := by
    ext j i
    simp [centrePredictors, msLine]
  obtain ⟨r, g, hg, hw, hpos, -⟩ := ex_autoRun (D := 1) (some 5) (some 10) rfl rfl (by norm_num) (by norm_num) md.search0 hv.1 md.fit0 hv.2.1
    ![2, 3] true true
  have hfit := C119_auto_fit _ _ hv.1 _ hv.2.1 _ _ _ _ _ _ hc _ (line_mapDistance 1) _ _ _ _ _ _ hg
  obtain ⟨W, -, hW, h0⟩ := kernelRows hc.2 hc.2 (line_mapDistance 1) (usable_fixed (m := 3) (n := 3) hpos .Gaussian _) id
  rw [← hw] at hW
  obtain ⟨C, hC⟩ := hfit.2.2.2.2 (by rw [hw]; exact usable_fixed hpos .Gaussian _) W hW
  have hB : ∀ j, g.betas j = ![2, 3] := fun j => wls_unique (hC.regression.coefficients j) (wls_exact (h0 j) (exX_determined _ fun l => by
    rw [hw] at hW
    obtain ⟨r, -, e⟩ := hW j
    rw [e]; exact Real.exp_pos _) _)
  have h2 : (Res.tabulate 2 fun i => bindLocations (msLine.dist i) msLine.coords msLine.coords) =
      .ok (fun _ => ⟨false, some (lineCoords 1, lineCoords 1)⟩) :=
    Res.tabulate_eq_ok.2 fun i => bindLocations_eq_ok.2 ⟨rfl, rfl, rfl⟩
  have hNull : ∀ i, msLine.init i ≠ .Null := fun i => by fin_cases i <;> simp [msLine]
  have h3 : (Res.tabulate 2 fun i => mgwrDistRange (msLine.init i) ⟨false, some (lineCoords 1, lineCoords 1)⟩) = .ok fun _ => (0, 0) :=
    Res.tabulate_eq_ok.2 fun i => by rw [mgwrDistRange, if_neg (hNull i)]
  have h4 : ∀ s : Fin 2 → Res BandwidthWeight, (Res.tabulate 2 fun i => if msLine.init i = .Null then s i else .ok (msLine.bw i)) = .ok msLine.bw :=
    fun s => Res.tabulate_eq_ok.2 fun i => if_neg (hNull i)
  have hy : partialResid (msLine.cfgIn true exX) 0 (bfInitIn msLine exX g msLine.bw) = colOf exX 0 *ᵥ fun _ => 2 := by
    funext j
    simp only [partialResid, bfInitIn, MgwrSetup.cfgIn, fitted, hB, msLine]
    fin_cases j <;> simp [exX, colOf, mulVec, dotProduct, Fin.sum_univ_two] <;> ring
  obtain ⟨b, hb, hb1, hb2, hb3⟩ := search_finds ⟨7, false, .Gaussian⟩ rfl 5 10 (by norm_num)
    (fun j b => (true, varCriterionIn .CV ⟨false, some (lineCoords 1, lineCoords 1)⟩ (colOf exX 0) (colOf exX 0 *ᵥ fun _ => 2) b (md.search 0 0 j)))
    (fun _ _ => rfl) (by
      obtain ⟨g1, g2⟩ := goldenR_bounds
      have hp : (0 : ℝ) < 5 + goldenR * (10 - 5) := by nlinarith
      obtain ⟨W, -, hW, -⟩ := kernelRows hc.2 hc.2 (line_mapDistance 1) (usable_fixed (m := 3) (n := 3) hp .Gaussian _) id
      simp only [varCriterionIn]
      rw [(C119_criterion .CV (md.search 0 0 0) (hv.2.2.2.1 0 0 0) false _ _ hc _ W (line_mapDistance 1) (usable_fixed hp .Gaussian _) hW _ _).1 0
        (const_loo hW 2), abs_zero, if_pos]
      linarith [hundred_lt_dblMax])
  obtain ⟨bw, ad, kn⟩ := b
  simp only at hb1 hb2 hb3
  subst hb2 hb3
  have hsel : ∀ s : BfState 3 2, (bfSelect (msLine.cfgIn true exX) 0 ⟨bw, false, .Gaussian⟩ s).bw = Function.update s.bw 0 ⟨bw, false, .Gaussian⟩ :=
    fun s => by
      unfold bfSelect
      dsimp only
      split
      · rfl
      · split <;> rfl
  have hseli : ∀ s : BfState 3 2, (bfSelect (msLine.cfgIn true exX) 0 ⟨bw, false, .Gaussian⟩ s).init 1 = s.init 1 :=
    fun s => by
      unfold bfSelect
      dsimp only
      split
      · rfl
      · split
        · simp
        · rfl
  obtain ⟨r1, hr1⟩ := fitVarIn_line (hv.2.2.2.2 0 0) (show (0 : ℝ) < bw by linarith) 0 (colOf exX 0 *ᵥ fun _ => 2)
  have hv0 : ∃ s', bfVarIn msLine true md exX (fun _ => ⟨false, some (lineCoords 1, lineCoords 1)⟩) (fun _ => (0, 0)) 0 0
      (bfInitIn msLine exX g msLine.bw) = .ok s' ∧ s'.init 1 = .Specified ∧ s'.bw 1 = ⟨2, false, .Gaussian⟩ := by
    refine ⟨bfStore (msLine.cfgIn true exX) 0 r1.1 r1.2 (bfSelect (msLine.cfgIn true exX) 0 ⟨bw, false, .Gaussian⟩ (bfInitIn msLine exX g msLine.bw)),
      ?_, ?_, ?_⟩
    · unfold bfVarIn
      dsimp only
      rw [if_neg (by simp [bfInitIn, msLine]), hy]
      have : (msLine.searchIn exX (fun _ => ⟨false, some (lineCoords 1, lineCoords 1)⟩) (fun _ => (0, 0)) 0 (colOf exX 0 *ᵥ fun _ => 2)
          ((bfInitIn msLine exX g msLine.bw).bw 0) (md.search 0 0)).out = .ok ⟨bw, false, .Gaussian⟩ := by
        rw [← hb]
        simp [MgwrSetup.searchIn, mgwrBounds, msLine, bfInitIn]
      rw [this]
      simp only [Res.bind, hsel, Function.update_self, hr1]
    · simp only [bfStore]
      rw [hseli]
      rfl
    · simp only [bfStore]
      rw [hsel]
      rfl
  obtain ⟨s1, hs1, hi1, hw1⟩ := hv0
  have hv1 : ∃ s', bfVarIn msLine true md exX (fun _ => ⟨false, some (lineCoords 1, lineCoords 1)⟩) (fun _ => (0, 0)) 0 1 s1 = .ok s' := by
    obtain ⟨r2, hr2⟩ := fitVarIn_line (hv.2.2.2.2 0 1) (show (0 : ℝ) < 2 by norm_num) 1 (partialResid (msLine.cfgIn true exX) 1 s1)
    unfold bfVarIn
    dsimp only
    rw [if_pos hi1]
    simp only [Res.bind, hw1, hr2]
    exact ⟨_, rfl⟩
  obtain ⟨s2, hs2⟩ := hv1
  have hgo : decide (dblMax > msLine.critThreshold) = true := by
    simp only [msLine, gt_iff_lt, decide_eq_true_eq]
    linarith [hundred_lt_dblMax]
  have hbf : ∃ r, backfittingIn msLine true md exX (fun _ => ⟨false, some (lineCoords 1, lineCoords 1)⟩) (fun _ => (0, 0))
      (bfInitIn msLine exX g msLine.bw) = .ok r := by
    unfold backfittingIn
    rw [hgo]
    change ∃ r, bfLoopIn _ _ _ _ _ _ (0 + 1) 0 true _ _ = .ok r
    rw [bfLoopIn, if_neg (by simp)]
    have hfr : List.finRange 2 = [0, 1] := rfl
    rw [hfr]
    simp only [bfVarsIn, hs1, hs2, Res.bind, bfLoopIn]
    exact ⟨_, rfl⟩
  obtain ⟨p, hp⟩ := hbf
  unfold mgwrRunIn
  dsimp only
  rw [hx, dif_pos (by norm_num)]
  simp only [Res.bind]
  have : gwrAutoRun (msLine.approach ⟨0, by norm_num⟩) md.search0 md.fit0 msLine.dist0 msLine.bw0 msLine.lower msLine.upper msLine.coords exX
      msLine.y (true || decide (3 < 8192)) true = .ok (r, g) := hg
  rw [this]
  simp only
  rw [h2]
  simp only
  rw [h3]
  simp only
  rw [h4]
  simp only
  rw [hp]
  exact ⟨_, rfl⟩

/-- All loops by two threads, the last place first. -/
noncomputable def msThreads : MgwrModes 3 2 := ⟨fun _ => exThreads, exThreads, fun _ _ => exThreads, fun _ _ _ => exThreads, fun _ _ => exThreads⟩

theorem msThreads_valid : msThreads.Valid :=
  ⟨fun _ => exThreads_valid, exThreads_valid, fun _ _ => exThreads_valid, fun _ _ _ => exThreads_valid, fun _ _ => exThreads_valid⟩

example := C135_run msLine true msThreads msThreads_valid ⟨rfl, rfl⟩ (by norm_num) _ (line_mapDistance 1) _ (fun _ => line_mapDistance 1)
  (by simp only [msLine]; linarith [hundred_lt_dblMax]) _ (msLine_run msThreads msThreads_valid).choose_spec
example := C135_diagnostics msLine msThreads msThreads_valid _ (msLine_run msThreads msThreads_valid).choose_spec

/-- Serial searches, multithreaded fits. -/
noncomputable def msMixed : MgwrModes 3 2 := ⟨fun _ => .serial, exThreads, fun _ _ => .serial, fun _ _ _ => .serial, fun _ _ => exThreads⟩

/-- Everything serial. -/
noncomputable def msSerial : MgwrModes 3 2 := ⟨fun _ => .serial, .serial, fun _ _ => .serial, fun _ _ _ => .serial, fun _ _ => .serial⟩

theorem msMixed_valid : msMixed.Valid := ⟨fun _ => trivial, exThreads_valid, fun _ _ => trivial, fun _ _ _ => trivial, fun _ _ => exThreads_valid⟩
theorem msSerial_valid : msSerial.Valid := ⟨fun _ => trivial, trivial, fun _ _ => trivial, fun _ _ _ => trivial, fun _ _ => trivial⟩

example := C135_same_report msLine true msSerial msMixed msSerial_valid msMixed_valid ⟨rfl, rfl, rfl⟩ _ (msLine_run msSerial msSerial_valid).choose_spec

/-- The serial search on the line meets no bandwidth without a score. -/
theorem line_scores : ∃ r g, gwrAutoRun .CV (fun _ => .serial) .serial ⟨false, none⟩ ⟨1, false, .Gaussian⟩ (some 5) (some 10) (lineCoords 1) exX
    (exX *ᵥ ![2, 3]) true true = .ok (r, g) ∧ (∀ e ∈ r.evals, e.f ≠ dblMax) ∧
      gwrSearchEx .CV (fun _ => .serial) ⟨false, some (lineCoords 1, lineCoords 1)⟩ ⟨1, false, .Gaussian⟩ (some 5) (some 10) exX (exX *ᵥ ![2, 3]) = .ok r := by
  have hc : FitsData (lineCoords 1) 3 := ⟨rfl, rfl⟩
  obtain ⟨r, g, hg, -⟩ := ex_autoRun (D := 1) (some 5) (some 10) rfl rfl (by norm_num) (by norm_num) (fun _ => .serial) (fun _ => trivial) .serial trivial
    ![2, 3] true true
  have hfit := C119_auto_fit .CV (fun _ => .serial) (fun _ => trivial) .serial trivial _ _ _ _ _ _ hc _ (line_mapDistance 1) _ _ _ _ _ _ hg
  have hs : gwrSearchEx .CV (fun _ => .serial) ⟨false, some (lineCoords 1, lineCoords 1)⟩ ⟨1, false, .Gaussian⟩ (some 5) (some 10) exX (exX *ᵥ ![2, 3]) =
      .ok r := by
    unfold gwrAutoRun at hg
    obtain ⟨d', hb, h⟩ := Res.bind_eq_ok'.1 hg
    obtain ⟨-, -, rfl⟩ := bindLocations_eq_ok.1 hb
    obtain ⟨r', hr, h⟩ := Res.bind_eq_ok'.1 h
    obtain ⟨b, -, h⟩ := Res.bind_eq_ok'.1 h
    obtain ⟨g', -, h⟩ := Res.bind_eq_ok'.1 h
    simp only [Res.ok.injEq, Prod.mk.injEq] at h
    obtain ⟨rfl, -⟩ := h
    exact hr
  refine ⟨r, g, hg, fun e he => ?_, hs⟩
  have h5 : 5 ≤ e.x := by
    unfold gwrSearchEx gwrUpper at hs
    simp only [Res.bind, Option.getD_some] at hs
    rw [← Res.ok.inj hs] at he
    exact ((C15_fixed_within_bounds ⟨1, false, .Gaussian⟩ rfl 5 10 (by norm_num) _ _).1 e he).1
  have hp : 0 < e.x := by linarith
  obtain ⟨W, -, hW, -⟩ := kernelRows hc.2 hc.2 (line_mapDistance 1) (usable_fixed (m := 3) (n := 3) hp .Gaussian _) id
  have := (hfit.2.2.2.1 e he (usable_fixed hp .Gaussian _) W hW).1 0 (gauss_loo hW _) (by rw [abs_zero]; linarith [hundred_lt_dblMax])
  rw [this]
  linarith [hundred_lt_dblMax]

example : ∃ r g g', gwrAutoRun .CV (fun _ => exThreads) exThreads ⟨false, none⟩ ⟨1, false, .Gaussian⟩ (some 5) (some 10) (lineCoords 1) exX
    (exX *ᵥ ![2, 3]) true true = .ok (r, g') ∧ SameReport true true g g' ∧
    gwrSearchEx .CV (fun _ => exThreads) ⟨false, some (lineCoords 1, lineCoords 1)⟩ ⟨1, false, .Gaussian⟩ (some 5) (some 10) exX (exX *ᵥ ![2, 3]) = .ok r := by
  obtain ⟨r, g, h1, h2, h3⟩ := line_scores
  obtain ⟨g', a, b⟩ := C28_same_fit _ _ _ _ _ _ _ _ _ _ _ _ h1 h2 (fun _ => exThreads) (fun _ => exThreads_valid) exThreads exThreads_valid
  exact ⟨r, g, g', a, b, C28_same_search _ _ _ _ _ _ _ _ h3 h2 (fun _ => exThreads) fun _ => exThreads_valid⟩

end Verif.Cases

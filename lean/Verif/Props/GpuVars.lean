import Verif.Model.GpuVars
import Verif.Props.GpuRun

/-!
# C126: automatic selection of variables on the GPU
-/

namespace Verif.Props
open Verif Verif.Model Verif.Spec Matrix Classical

variable {n k : ℕ}

theorem gpu_ones {geo : Bool} {coords : DynMat} (hc : FitsData coords n) {dist : Fin n → Fin n → ℝ} (hd : IsMapDistance geo coords coords dist)
    (b : BandwidthWeight) :
    weightRowsCuda ⟨geo, some (coords, coords)⟩ { b with mBandwidth := dblMax } n n = .ok fun _ _ => 1 := by
  unfold weightRowsCuda
  rw [Res.tabulate_eq_ok]
  intro i
  unfold weightVectorCuda
  rw [C124_device_distances geo coords coords rfl]
  rw [mapDistance_calc] at hd
  obtain ⟨l, h1, h2⟩ := distance_list (by rw [hc.2]; exact i.isLt) hc.2 (hd i)
  rw [h1, Res.bind, h2, Res.bind]
  unfold gwWeightCuda
  rw [if_pos rfl]

/-- **C126 (criterion).** On the GPU, with at least as many observations as the group size, for planar or geographic coordinates and whatever kernel and
bandwidth are configured: if the unweighted regression on a set of variables (after the intercept, if there is one) is determined, the value by which
the selection compares the set is the corrected Akaike criterion of this regression. Missing: sets for which it is not determined
(`C126_undetermined_is_zero_fit`). -/
theorem C126_gpu_criterion_partial (G : ℕ) (hG : 0 < G) (hn : G ≤ n) (g : ℕ → ℝ) (geo : Bool) (b : BandwidthWeight) (coords : DynMat)
    (hc : FitsData coords n) (dist : Fin n → Fin n → ℝ) (hd : IsMapDistance geo coords coords dist) (x : Matrix (Fin n) (Fin k) ℝ) (y : Fin n → ℝ)
    (hasIntercept : Bool) (vars : List ℕ) (v : ℝ)
    (h : gpuVarsCriterion G g ⟨geo, some (coords, coords)⟩ b x y hasIntercept vars = .ok v) :
    ∃ (k' : ℕ) (X : Matrix (Fin n) (Fin k') ℝ), Columns x (modelColumns hasIntercept vars) X ∧
      (Determined X (fun _ => 1) →
        ∃ B C, IsLocalRegression X y (fun _ _ => 1) B C ∧ v = aiccFormula n (residualSS X y B) (∑ i, hatOf X C i i)) := by
  unfold gpuVarsCriterion at h
  obtain ⟨X, hX, h⟩ := Res.bind_eq_ok'.1 h
  refine ⟨_, X, (pickCols_ok hX).1, fun hdet => ?_⟩
  rw [gpu_ones hc hd] at h
  obtain ⟨a, ha⟩ := (C21_fit_succeeds_iff X y (fun _ _ => 1) (fun _ _ => zero_le_one) false false).1.2 fun _ => hdet
  obtain ⟨C, hC⟩ := serialFit_explicit (fun _ _ => zero_le_one) ha
  obtain ⟨s, e, hs⟩ := aic_core (fun _ _ => zero_le_one) hC.local_
  obtain ⟨e1, e2, -⟩ := C33_shat_cuda X y (fun _ _ => 1) G hG hn g _ _ e
  dsimp only at h
  rw [e1, e2] at h
  exact ⟨a.betas, C, hC.local_, by rw [← hs]; exact aicc_formula h⟩

theorem gpu_selection_core {srt : List FModel → List FModel} (hsrt : IsStdSort srt) {thr : ℝ} {G : ℕ} (hG : 0 < G) (hn : G ≤ n) {g : List ℕ → ℕ → ℝ}
    {geo : Bool} {b : BandwidthWeight} {coords : DynMat} (hc : FitsData coords n) {dist : Fin n → Fin n → ℝ} (hd : IsMapDistance geo coords coords dist)
    {x : Matrix (Fin n) (Fin k) ℝ} {y : Fin n → ℝ} {hasIntercept : Bool} {s : Selected n}
    (h : gpuSelectVars srt thr G g ⟨geo, some (coords, coords)⟩ b x y hasIntercept = .ok s) :
    IsGWRSelection False thr x y (fun _ _ => 1) hasIntercept s := by
  obtain ⟨path, visited, h1, h2, h3⟩ := selectVars_spec hsrt h
  refine ⟨path, visited, h1, fun m hm => ?_, h3⟩
  obtain ⟨k', X, c1, c2⟩ := C126_gpu_criterion_partial G hG hn (g _) geo b coords hc dist hd x y hasIntercept _ _ (h2 m hm)
  exact ⟨k', X, c1, fun hdet => c2 (hdet ⟨0, by omega⟩), fun hf => hf.elim⟩

/-- **C126 (run).** A completed fit on the GPU with automatic selection of variables and a given bandwidth: the selection is a greedy forward search by the
corrected Akaike criterion of the unweighted regressions (where they are determined), stopped by the threshold, as on the CPU; and, if the bandwidth
means the same on both devices, everything reported belongs to the regressions on the selected columns with the configured bandwidth. -/
theorem C126_gpu_var_fit_partial (srt : List FModel → List FModel) (hsrt : IsStdSort srt) (thr : ℝ) (G : ℕ) (hG : 0 < G) (hn : G ≤ n)
    (g : List ℕ → ℕ → ℝ) (geo : Bool) (par : Option (DynMat × DynMat)) (b : BandwidthWeight) (coords : DynMat) (hc : FitsData coords n)
    (dist w : Fin n → Fin n → ℝ) (hd : IsMapDistance geo coords coords dist) (hb : UsableRadius b dist) (hg : DeviceBandwidth b dist)
    (hw : IsKernelWeight b dist w) (x : Matrix (Fin n) (Fin k) ℝ) (y : Fin n → ℝ) (hasIntercept sS sC : Bool) (s : Selected n)
    (rep : GWRReport n s.cols.length) (h : gpuVarRun srt thr G g ⟨geo, par⟩ b coords x y hasIntercept sS sC = .ok ⟨s, rep⟩) :
    IsGWRSelection False thr x y (fun _ _ => 1) hasIntercept s ∧ rep.weight = b ∧ ∃ C, IsGWRReport s.x y w sS sC rep C := by
  unfold gpuVarRun at h
  obtain ⟨d', hb', h⟩ := Res.bind_eq_ok'.1 h
  obtain ⟨c1, c2, rfl⟩ := bindLocations_eq_ok.1 hb'
  obtain ⟨s', hs', h⟩ := Res.bind_eq_ok'.1 h
  obtain ⟨g', hg', h⟩ := Res.bind_eq_ok'.1 h
  obtain ⟨rfl, e2⟩ := Sigma.mk.inj (Res.ok.inj h)
  cases eq_of_heq e2
  refine ⟨gpu_selection_core hsrt hG hn hc hd hs', ?_⟩
  obtain ⟨k1, k2⟩ := C124_gpu_fit_partial G hG hn geo par b coords hc dist w hd hb hg hw s'.x y sS sC
  have hrun : gpuRun G ⟨geo, par⟩ b coords s'.x y sS sC = .ok g' := by
    unfold gpuRun
    rw [hb']
    exact hg'
  by_cases hdet : ∀ i, Determined s'.x (w i)
  · obtain ⟨g2, C, e, -, e2, hC⟩ := k1 hdet
    cases Res.ok.inj (hrun.symm.trans e)
    exact ⟨e2, C, hC⟩
  · push Not at hdet
    rw [k2 hdet] at hrun; cases hrun

/-- **C126 (run, both selections).** With automatic bandwidth selection as well, the bandwidth search runs on the selected columns, and what is said of it
in `C125_gpu_auto_fit_partial` holds for these. -/
theorem C126_gpu_var_auto_fit_partial (srt : List FModel → List FModel) (hsrt : IsStdSort srt) (thr : ℝ) (G : ℕ) (hG : 0 < G) (hn : G ≤ n)
    (g : List ℕ → ℕ → ℝ) (c : Crit) (gB : ℕ → ℕ → ℝ) (geo : Bool) (par : Option (DynMat × DynMat)) (b0 : BandwidthWeight) (lower upper : Option ℝ)
    (coords : DynMat) (hc : FitsData coords n) (dist : Fin n → Fin n → ℝ) (hd : IsMapDistance geo coords coords dist)
    (x : Matrix (Fin n) (Fin k) ℝ) (y : Fin n → ℝ) (hasIntercept sS sC : Bool) (s : Selected n) (r : SearchResult)
    (rep : GWRReport n s.cols.length)
    (h : gpuVarAutoRun srt thr G g c gB ⟨geo, par⟩ b0 lower upper coords x y hasIntercept sS sC = .ok ⟨s, (r, rep)⟩) :
    IsGWRSelection False thr x y (fun _ _ => 1) hasIntercept s ∧ IsGpuSearchedFit c b0 dist s.x y sS sC r rep := by
  unfold gpuVarAutoRun at h
  obtain ⟨d', hb', h⟩ := Res.bind_eq_ok'.1 h
  obtain ⟨-, -, rfl⟩ := bindLocations_eq_ok.1 hb'
  obtain ⟨s', hs', h⟩ := Res.bind_eq_ok'.1 h
  obtain ⟨r', hr, h⟩ := Res.bind_eq_ok'.1 h
  obtain ⟨b, ho, h⟩ := Res.bind_eq_ok'.1 h
  obtain ⟨g', hg, h⟩ := Res.bind_eq_ok'.1 h
  obtain ⟨rfl, e2⟩ := Sigma.mk.inj (Res.ok.inj h)
  cases eq_of_heq e2
  exact ⟨gpu_selection_core hsrt hG hn hc hd hs', gpu_auto_core c hG hn hc hd hr ho hg⟩

/-! ## Sets of variables that determine nothing -/

theorem aicc_zero {X : Matrix (Fin n) (Fin k) ℝ} {y : Fin n → ℝ} (hn : 2 < n) (hy : 0 < ∑ i, y i ^ 2) :
    aicc X y 0 0 = .ok (aiccFormula n (∑ i, y i ^ 2) 0) := by
  have hr : rss X y 0 = ∑ i, y i ^ 2 := by simp [rss, fitted, pow_two]
  have hn' : (2 : ℝ) < n := by exact_mod_cast hn
  have h1 : (n : ℝ) ≠ 0 := by linarith
  have h2 : (n : ℝ) - 2 ≠ 0 := by linarith
  have h3 : 0 < (∑ i, y i ^ 2) / n := div_pos hy (by linarith)
  simp [aicc, hr, fdiv, flog, Res.bind, aiccFormula, h1, h2, not_le.2 h3]

/-- **C126 (undetermined sets), refuted.** A set of variables that does not determine the coefficients (for instance a column of zeros, or a repeated
column) has no criterion, and the serial CPU never prefers it: it counts as `DBL_MAX` (`C120_criterion`). On the GPU, with more than two observations, it
is scored, without any sign of failure, as a model without any parameter that predicts zero everywhere. -/
theorem C126_undetermined_is_zero_fit (G : ℕ) (hG : 0 < G) (hn : G ≤ n) (h2 : 2 < n) (g : ℕ → ℝ) (geo : Bool) (b : BandwidthWeight)
    (coords : DynMat) (hc : FitsData coords n) (dist : Fin n → Fin n → ℝ) (hd : IsMapDistance geo coords coords dist)
    (x : Matrix (Fin n) (Fin k) ℝ) (y : Fin n → ℝ) (hy : 0 < ∑ i, y i ^ 2) (hasIntercept : Bool) (vars : List ℕ)
    (hv : ∀ c ∈ modelColumns hasIntercept vars, c < k) (hno : ∀ (k' : ℕ) (X : Matrix (Fin n) (Fin k') ℝ),
      Columns x (modelColumns hasIntercept vars) X → ¬ Determined X fun _ => 1) :
    gpuVarsCriterion G g ⟨geo, some (coords, coords)⟩ b x y hasIntercept vars = .ok (aiccFormula n (∑ i, y i ^ 2) 0) := by
  have hm : index2uvec vars hasIntercept = modelColumns hasIntercept vars := rfl
  obtain ⟨X, hX⟩ : ∃ X, pickCols x (index2uvec vars hasIntercept) = .ok X := by
    unfold pickCols
    rw [dif_pos]
    · exact ⟨_, rfl⟩
    · rw [hm]; exact hv
  unfold gpuVarsCriterion
  rw [hX, Res.bind, gpu_ones hc hd]
  dsimp only
  rw [shat_quiet_zero y (fun _ _ => zero_le_one) hG hn g (i := ⟨0, by omega⟩) hG (hno _ X (pickCols_ok hX).1)]
  exact aicc_zero h2 hy

theorem selCoords_fits : FitsData selCoords 6 := ⟨rfl, rfl⟩

/-- Distances of the six points on a line. -/
noncomputable def selDist (i l : Fin 6) : ℝ := plane (selCoords.val i) (selCoords.val l)

theorem sel_distance : IsMapDistance false selCoords selCoords selDist := fun _ _ => rfl

theorem sel_kernel : IsKernelWeight ⟨11, false, .Boxcar⟩ selDist fun _ _ => 1 := fun i =>
  ⟨11, by simp [IsRadius], fun l => (selPlane (by norm_num) i l).symm⟩

theorem sel_device : DeviceBandwidth ⟨11, false, .Boxcar⟩ selDist := by
  refine ⟨fun _ => ?_, fun h => absurd h (by simp), fun _ i r hr l => ?_⟩
  · have := hundred_lt_dblMax
    dsimp only; linarith
  · have : r = 11 := by simpa [IsRadius] using hr
    subst this
    intro h
    have h2 := selPlane (bw := 11) (by norm_num) i l
    unfold selDist at h
    rw [h] at h2
    simp [kernelFormula] at h2

theorem sel_gpu_crit {G : ℕ} (hG : 0 < G) (hn : G ≤ 6) (g : ℕ → ℝ) {x : Matrix (Fin 6) (Fin 3) ℝ} {vars : List ℕ} {v : ℝ}
    (h : ∃ X, pickCols x (index2uvec vars true) = .ok X ∧ ∃ r, fitCoreSHatSerial X selY (fun _ _ => 1) 0 6 NoStop = .ok r ∧
      aicc X selY r.1.1 (r.1.2 0) = .ok v) :
    gpuVarsCriterion G g ⟨false, some (selCoords, selCoords)⟩ ⟨11, false, .Boxcar⟩ x selY true vars = .ok v := by
  obtain ⟨X, hX, ⟨⟨B, s⟩, f⟩, hr, ha⟩ := h
  obtain rfl := serialFor_nostop _ _ _ hr
  unfold gpuVarsCriterion
  rw [hX, Res.bind, gpu_ones selCoords_fits sel_distance]
  obtain ⟨e1, e2, -⟩ := C33_shat_cuda X selY (fun _ _ => 1) G hG hn g _ _ hr
  dsimp only at ha ⊢
  rw [e1, e2]
  exact ha

theorem sel_gpu_bad {G : ℕ} (hG : 0 < G) (hn : G ≤ 6) (g : ℕ → ℝ) {vars : List ℕ} (hv : ∀ c ∈ vars, c < 3) (h2 : 2 ∈ vars) :
    gpuVarsCriterion G g ⟨false, some (selCoords, selCoords)⟩ ⟨11, false, .Boxcar⟩ zeroColX selY true vars = .ok (aiccFormula 6 2 0) := by
  have hy : ∑ i, selY i ^ 2 = 2 := by norm_num [selY, Fin.sum_univ_succ]
  have h := C126_undetermined_is_zero_fit G hG hn (by norm_num) g false ⟨11, false, .Boxcar⟩ selCoords selCoords_fits _ sel_distance zeroColX selY
    (by rw [hy]; norm_num) true vars (fun c hc => ?_) fun k' X hX => ?_
  · rw [h, hy]
  · simp only [modelColumns, if_true, List.mem_cons] at hc
    rcases hc with rfl | hc
    · norm_num
    · exact hv c hc
  · obtain ⟨j, hj⟩ := zeroCol_has h2 hX
    exact zeroCol_not_determined j hj _

/-- **C126 (selection), refuted.** Six observations on a line, an intercept, a covariate and a column of zeros: the serial CPU selects the covariate and
reports its regressions. The GPU, in groups of any size up to six and with the same configuration, selects the column of zeros, and the fit throws. -/
theorem C126_gpu_selects_zeros (srt : List FModel → List FModel) (hsrt : IsStdSort srt) (sS sC : Bool) (G : ℕ) (hG : 0 < G) (hn : G ≤ 6)
    (g : List ℕ → ℕ → ℝ) :
    (∃ s r, gwrVarRun srt 3 (fun _ => .serial) .serial ⟨false, none⟩ ⟨11, false, .Boxcar⟩ selCoords zeroColX selY true sS sC = .ok ⟨s, r⟩ ∧
      s.vars = [1]) ∧
    (∃ s, gpuSelectVars srt 3 G g ⟨false, some (selCoords, selCoords)⟩ ⟨11, false, .Boxcar⟩ zeroColX selY true = .ok s ∧ s.vars = [2]) ∧
    gpuVarRun srt 3 G g ⟨false, none⟩ ⟨11, false, .Boxcar⟩ selCoords zeroColX selY true sS sC = .throw .runtime := by
  have hgap := aicc_gap
  obtain ⟨s, h, hv⟩ := two_selectVars hsrt (crit := fun vars => gpuVarsCriterion G (g vars) ⟨false, some (selCoords, selCoords)⟩
    ⟨11, false, .Boxcar⟩ zeroColX selY true vars) (sel_gpu_crit hG hn _ zeroCol_core1) (sel_gpu_bad hG hn _ (by decide) (by simp))
    (sel_gpu_bad hG hn _ (by decide) (by simp)) (sel_gpu_bad hG hn _ (by decide) (by simp))
    (by rw [hgap]; norm_num) (by rw [min_eq_right (by linarith)]; linarith) zeroColX
  rw [if_neg (by linarith)] at hv
  have hsel : gpuSelectVars srt 3 G g ⟨false, some (selCoords, selCoords)⟩ ⟨11, false, .Boxcar⟩ zeroColX selY true = .ok s := h
  refine ⟨(C120_parallel_selects_zeros srt hsrt sS sC).1, ⟨s, hsel, hv⟩, ?_⟩
  obtain ⟨-, -, -, -, -, -, -, -, -, -, hcol⟩ := selectVars_spec hsrt h
  obtain ⟨j, hj⟩ := zeroCol_has (by rw [hv]; simp) hcol
  have hf := (C124_gpu_fit_partial G hG hn false none ⟨11, false, .Boxcar⟩ selCoords selCoords_fits selDist (fun _ _ => 1) sel_distance
    (usable_fixed (by norm_num) _ _) sel_device sel_kernel s.x selY sS sC).2 ⟨0, zeroCol_not_determined j hj _⟩
  have hb : bindLocations ⟨false, none⟩ selCoords selCoords = .ok ⟨false, some (selCoords, selCoords)⟩ :=
    bindLocations_eq_ok.2 ⟨rfl, rfl, rfl⟩
  unfold gpuRun at hf
  rw [hb, Res.bind] at hf
  unfold gpuVarRun
  rw [hb]
  simp only [Res.bind, hsel, hf]

/-- The same configuration, with a covariate that does not repeat anything: the hypotheses of `C126_gpu_var_fit_partial` hold, and the run completes. -/
example (srt : List FModel → List FModel) (hsrt : IsStdSort srt) (sS sC : Bool) (G : ℕ) (hG : 0 < G) (hn : G ≤ 6) (g : List ℕ → ℕ → ℝ) :
    ∃ s rep, gpuVarRun srt 0 G g ⟨false, none⟩ ⟨11, false, .Boxcar⟩ selCoords selX selY true sS sC = .ok ⟨s, rep⟩ := by
  obtain ⟨s, h, hv⟩ := ex_selectVars srt hsrt (crit := fun vars => gpuVarsCriterion G (g vars) ⟨false, some (selCoords, selCoords)⟩
    ⟨11, false, .Boxcar⟩ selX selY true vars) (sel_gpu_crit hG hn _ sel_core1) (sel_gpu_crit hG hn _ sel_core2) (sel_gpu_crit hG hn _ sel_core12)
    (by have := aicc_drop; push_cast; linarith)
  have hsel : gpuSelectVars srt 0 G g ⟨false, some (selCoords, selCoords)⟩ ⟨11, false, .Boxcar⟩ selX selY true = .ok s := h
  obtain ⟨-, -, -, -, -, -, -, -, -, hr, hcol⟩ := selectVars_spec hsrt h
  obtain ⟨v, hv⟩ := List.length_eq_one_iff.1 hv
  rw [hv] at hcol hr
  have hv2 := hr v (by simp)
  simp only [if_true] at hv2
  have hdet := sel_determined (v := v) (by omega) hcol
  obtain ⟨rep, C, hrep, -⟩ := (C124_gpu_fit_partial G hG hn false none ⟨11, false, .Boxcar⟩ selCoords selCoords_fits selDist (fun _ _ => 1)
    sel_distance (usable_fixed (by norm_num) _ _) sel_device sel_kernel s.x selY sS sC).1 fun _ => hdet
  have hb : bindLocations ⟨false, none⟩ selCoords selCoords = .ok ⟨false, some (selCoords, selCoords)⟩ :=
    bindLocations_eq_ok.2 ⟨rfl, rfl, rfl⟩
  unfold gpuRun at hrep
  rw [hb, Res.bind] at hrep
  refine ⟨s, rep, ?_⟩
  unfold gpuVarRun
  rw [hb]
  simp only [Res.bind, hsel, hrep]

end Verif.Props

import Verif.Model.GpuRun
import Verif.Spec.GpuRun
import Verif.Props.KernelCuda
import Verif.Props.GWRCuda
import Verif.Props.GWRBasicRun

/-!
# C124, C125: whole runs of basic regression on the GPU
-/

namespace Verif.Props
open Verif Verif.Model Verif.Spec Matrix Classical

variable {n k m : ℕ}

/-! ## Distances -/

theorem mapRes_congr {α β : Type*} {f g : α → Res β} : ∀ {l : List α}, (∀ a ∈ l, f a = g a) → mapRes f l = mapRes g l
  | [], _ => rfl
  | a :: l, h => by
    simp only [mapRes]
    rw [h a (List.mem_cons_self ..), mapRes_congr fun b hb => h b (List.mem_cons_of_mem _ hb)]

theorem devCalc_eq (geo : Bool) (fp dp : DynMat) (focus i : ℕ) :
    devCalc geo (devMem dp) (fun p => devMem fp (focus * 2 + p)) i = crsCalc geo (fp.val focus) (dp.val i) := by
  have e0 : ∀ (q : DynMat) (j : ℕ), devMem q (j * 2) = q.val j 0 := fun q j => by
    unfold devMem
    rw [Nat.mul_div_cancel _ (by norm_num), Nat.mul_mod_left]
  have e1 : ∀ (q : DynMat) (j : ℕ), devMem q (j * 2 + 1) = q.val j 1 := fun q j => by
    unfold devMem
    rw [show (j * 2 + 1) / 2 = j by omega, show (j * 2 + 1) % 2 = 1 by omega]
  cases geo with
  | true =>
    simp only [devCalc, crsCalc, if_true, spDistKernel, Nat.add_zero, e0, e1]
    rfl
  | false =>
    simp only [devCalc, crsCalc, Bool.false_eq_true, if_false, euDistKernel, euclid, Nat.add_zero, e0, e1, sq]

/-- **C124 (distances).** The GPU measures the same distances as the CPU, in the plane and on the ellipsoid, between any points, provided there are not more
places than observations. -/
theorem C124_device_distances (geo : Bool) (at' obs : DynMat) (h : at'.nRows = obs.nRows) (i : ℕ) :
    (CRSDistance.distanceCuda ⟨geo, some (at', obs)⟩ i) = CRSDistance.distance ⟨geo, some (at', obs)⟩ i := by
  simp only [CRSDistance.distanceCuda, CRSDistance.distance, crsDistRow]
  split
  · rw [if_neg (by omega), h]
    exact mapRes_congr fun a _ => devCalc_eq geo at' obs i a
  · rfl

/-- **C124 (Minkowski distances), refuted.** The GPU ignores the exponent and the rotation: between (0, 0) and (3, 4) the CPU gives 4 for exponent 1 and 7 for
exponent -1, the GPU 5 whatever they are. -/
theorem C124_minkowski_ignored (p θ : ℝ) :
    let pts : DynMat := ⟨2, 2, fun i j => if i = 0 then 0 else if j = 0 then 3 else 4⟩
    (MinkwoskiDistance.distanceCuda ⟨⟨false, some (pts, pts)⟩, p, θ⟩ 0) = .ok [0, 5] ∧
    (MinkwoskiDistance.distance ⟨⟨false, some (pts, pts)⟩, 1, 0⟩ 0) = .ok [0, 4] ∧
    (MinkwoskiDistance.distance ⟨⟨false, some (pts, pts)⟩, -1, 0⟩ 0) = .ok [0, 7] := by
  refine ⟨?_, ?_, ?_⟩
  · rw [MinkwoskiDistance.distanceCuda, C124_device_distances _ _ _ rfl]
    have h25 : √(3 * 3 + 4 * 4 : ℝ) = 5 := by
      rw [show (3 * 3 + 4 * 4 : ℝ) = 5 ^ 2 by norm_num, Real.sqrt_sq (by norm_num)]
    simp [CRSDistance.distance, crsDistRow, crsCalc, euclid, List.range_succ, mapRes, Res.bind, h25]
  · simp [MinkwoskiDistance.distance, chessDist, List.range_succ]
    norm_num
  · simp [MinkwoskiDistance.distance, manhattonDist, List.range_succ]
    norm_num

/-! ## Weights -/

/-- On the GPU a whole number of neighbours up to all of them, or a fixed bandwidth, gives the weights of the CPU. -/
theorem device_of_radius {b : BandwidthWeight} {v : Fin n → ℝ} {r : ℝ} (h31 : b.mAdaptive = true → 1 ≤ b.mBandwidth ∧ n < 2147483648)
    (hfix : b.mAdaptive = false → b.mBandwidth ≠ dblMax) (hint : b.mAdaptive = true → ∃ q : ℕ, q ≤ n ∧ b.mBandwidth = q)
    (h : IsRadius b v r) (hr : 0 < r) (hbox : b.mKernel = .Boxcar → ∀ l, v l ≠ r) :
    gwWeightCuda b v = b.weight v := by
  obtain ⟨bw, ad, kernel⟩ := b
  unfold IsRadius at h
  cases ad with
  | false =>
    simp only [Bool.false_eq_true, if_false] at h
    subst h
    exact C06_fixed_agree_partial _ v rfl hr (hfix rfl) hbox
  | true =>
    obtain ⟨hb1, hn31⟩ := h31 rfl
    obtain ⟨q, hqn, hq⟩ := hint rfl
    dsimp only at hb1 hq
    subst hq
    have hq1 : 1 ≤ q := by exact_mod_cast hb1
    simp only [if_true] at h
    rcases h with ⟨q', s, t, t', h1, h2, h3, h4, h5, h6, h7, rfl⟩ | ⟨h1, t, h2, rfl⟩
    · have e : q' = q := by
        have a1 : (q' : ℝ) ≤ q := by linarith
        have a2 : (q : ℝ) < q' + 1 := by linarith
        have a1' : q' ≤ q := by exact_mod_cast a1
        have a2' : q < q' + 1 := by exact_mod_cast a2
        omega
      subst e
      have hs : s = 0 := by linarith
      subst hs
      have et : (1 - 0) * t + 0 * t' = t := by ring
      rw [et] at hr hbox
      exact C06_adaptive_agree_partial kernel v q' t hq1 hqn (by omega) h6 hr hbox
    · have e : q = n := by
        have : n ≤ q := by exact_mod_cast h1
        omega
      subst e
      have et : (q : ℝ) / q * t = t := by rw [div_self (by positivity), one_mul]
      rw [et] at hr hbox
      have hk := sorted_get_isKth v hq1 le_rfl
      have : IsLargest v _ := largest_of_kth hk
      rw [IsLargest.unique this h2] at hk
      exact C06_adaptive_agree_partial kernel v q t hq1 le_rfl hn31 hk hr hbox

theorem distance_list {geo : Bool} {at' obs : DynMat} {i : ℕ} (hi : i < at'.nRows) {v : Fin n → ℝ} (hn : obs.nRows = n)
    (h : ∀ j : Fin n, crsCalc geo (at'.val i) (obs.val j) = .ok (v j)) :
    ∃ l, CRSDistance.distance ⟨geo, some (at', obs)⟩ i = .ok l ∧ rowToVec l n = .ok v := by
  have hw : weightVector ⟨geo, some (at', obs)⟩ ⟨1, false, .Boxcar⟩ n i = .ok (fun j => if v j < 1 then 1 else 0) :=
    weightVector_eq_ok.2 ⟨hi, hn, v, h, boxcar_fixed⟩
  unfold weightVector at hw
  obtain ⟨l, h1, h2⟩ := Res.bind_eq_ok'.1 hw
  obtain ⟨v', h3, -⟩ := Res.bind_eq_ok'.1 h2
  refine ⟨l, h1, ?_⟩
  rw [h3]
  congr 1
  funext j
  have h4 : CRSDistance.distance ⟨geo, some (at', obs)⟩ i = .ok l := h1
  unfold CRSDistance.distance at h4
  simp only [if_pos hi] at h4
  have hlen := mapRes_length h4
  rw [List.length_range] at hlen
  have hf := mapRes_eq_ok.1 h4
  unfold rowToVec at h3
  split at h3
  · rename_i hn'
    have := (List.forall₂_iff_get.1 hf).2 j (by rw [List.length_range, ← hlen, hn']; exact j.isLt) (by rw [hn']; exact j.isLt)
    simp only [List.get_eq_getElem, List.getElem_range] at this
    rw [h j] at this
    rw [Res.ok.inj this, ← Res.ok.inj h3]
  · cases h3

theorem gpu_weights {geo : Bool} {at' obs : DynMat} {b : BandwidthWeight} {dist : Fin n → Fin n → ℝ} (hm : at'.nRows = n) (hn : obs.nRows = n)
    (hd : IsMapDistance geo at' obs dist) (hb : UsableRadius b dist) (hg : DeviceBandwidth b dist) :
    weightRowsCuda ⟨geo, some (at', obs)⟩ b n n = weightRows ⟨geo, some (at', obs)⟩ b n n := by
  unfold weightRowsCuda weightRows
  congr 1
  funext i
  unfold weightVectorCuda weightVector
  rw [C124_device_distances geo at' obs (by omega)]
  rw [mapDistance_calc] at hd
  obtain ⟨r, hr⟩ := radius_exists (b := b) (v := dist i) i.pos fun ha => (hb.1 ha).1
  obtain ⟨l, h1, h2⟩ := distance_list (by rw [hm]; exact i.isLt) hn (hd i)
  rw [h1, Res.bind, Res.bind, h2, Res.bind, Res.bind]
  exact device_of_radius hb.1 hg.1 hg.2.1 hr (hb.2 i r hr) fun hk => hg.2.2 hk i r hr

/-! ## The fit -/

/-- **C124 (fit).** With at least as many observations as the group size, any map (plane or ellipsoid), and any bandwidth and kernel that mean the same on both
devices, a whole GPU fit succeeds exactly if at every place the observations of positive weight determine the coefficients; then everything it
reports is what the CPU reports: the coefficients, hat matrix, traces, standard errors and diagnostics of geographically weighted regression. -/
theorem C124_gpu_fit_partial (G : ℕ) (hG : 0 < G) (hn : G ≤ n) (geo : Bool) (par : Option (DynMat × DynMat)) (b : BandwidthWeight) (coords : DynMat)
    (hc : FitsData coords n) (dist w : Fin n → Fin n → ℝ) (hd : IsMapDistance geo coords coords dist) (hb : UsableRadius b dist)
    (hg : DeviceBandwidth b dist) (hw : IsKernelWeight b dist w) (x : Matrix (Fin n) (Fin k) ℝ) (y : Fin n → ℝ) (sS sC : Bool) :
    ((∀ i, Determined x (w i)) → ∃ g C, gpuRun G ⟨geo, par⟩ b coords x y sS sC = .ok g ∧ gwrRun .serial ⟨geo, par⟩ b coords x y sS sC = .ok g ∧
      g.weight = b ∧ IsGWRReport x y w sS sC g C) ∧
    ((∃ i, ¬ Determined x (w i)) → gpuRun G ⟨geo, par⟩ b coords x y sS sC = .throw .runtime) := by
  obtain ⟨W, d', h1, -, h3, h4, h5⟩ := summary_weights (par := par) hc hd hb .serial
  obtain rfl := kernelWeight_unique h3 hw
  have hbind : bindLocations ⟨geo, par⟩ coords coords = .ok ⟨geo, some (coords, coords)⟩ := bindLocations_eq_ok.2 ⟨hc.1, hc.1, rfl⟩
  cases Res.ok.inj (h1.symm.trans hbind)
  have hgpu : weightRowsCuda ⟨geo, some (coords, coords)⟩ b n n = .ok W := (gpu_weights hc.2 hc.2 hd hb hg).trans h5
  have hW : ∀ i l, 0 ≤ W i l := fun i l => (h4 i).1 l
  obtain ⟨c1, -⟩ := core_report (x := x) (y := y) hW sS sC (ex := .serial) trivial b
  unfold gpuRun gwrRun gpuFinish gwrFinish
  simp only [h1, Res.bind, hgpu, h5, summaryEscape]
  refine ⟨fun h => ?_, fun h => ?_⟩
  · obtain ⟨a, C, ha, hC⟩ := c1 h
    have ha' := ha
    unfold gwrCoreEx at ha'
    obtain ⟨⟨a0, st⟩, hs, he⟩ := Res.bind_eq_ok'.1 ha'
    cases Res.ok.inj he
    have hst : st = false := serialFor_nostop _ _ _ hs
    subst hst
    refine ⟨_, C, ?_, ?_, rfl, hC⟩
    · rw [C33_fit_cuda_partial x y W G hG hn sS sC _ hs]
    · rw [ha]
  · rw [C33_singular_reported x y W hW G hG sS sC h]

/-- **C124 (small data), refuted.** With fewer observations than the group size (64 unless changed) every GPU fit throws, whatever the data. -/
theorem C124_gpu_small_data (G : ℕ) (hn : 0 < n) (hG : n < G) (hk : 0 < k) (geo : Bool) (par : Option (DynMat × DynMat)) (b : BandwidthWeight)
    (coords : DynMat) (hc : FitsData coords n) (dist : Fin n → Fin n → ℝ) (hd : IsMapDistance geo coords coords dist) (hb : UsableRadius b dist)
    (hg : DeviceBandwidth b dist) (x : Matrix (Fin n) (Fin k) ℝ) (y : Fin n → ℝ) (sS sC : Bool) :
    gpuRun G ⟨geo, par⟩ b coords x y sS sC = .throw .runtime := by
  obtain ⟨W, d', h1, -, h3, h4, h5⟩ := summary_weights (par := par) hc hd hb .serial
  have hbind : bindLocations ⟨geo, par⟩ coords coords = .ok ⟨geo, some (coords, coords)⟩ := bindLocations_eq_ok.2 ⟨hc.1, hc.1, rfl⟩
  cases Res.ok.inj (h1.symm.trans hbind)
  have hgpu : weightRowsCuda ⟨geo, some (coords, coords)⟩ b n n = .ok W := (gpu_weights hc.2 hc.2 hd hb hg).trans h5
  unfold gpuRun gpuFinish
  rw [h1, Res.bind, hgpu, Res.bind, C33_small_data_fails x y W G hk hn hG sS sC]
  rfl

/-! ## Prediction -/

theorem predict_singular_reported {x : Matrix (Fin n) (Fin k) ℝ} {y : Fin n → ℝ} {W : Fin n → Fin n → ℝ} (hW : ∀ i l, 0 ≤ W i l)
    {G : ℕ} (hG : 0 < G) (h : ∃ i, ¬ Determined x (W i)) : predictCuda x y W 0 n G = .throw .runtime := by
  obtain ⟨i, hi⟩ := h
  obtain ⟨t, ht, hm⟩ := group_of hG i
  have hb := group_bounds (first := 0) (second := n) hG (List.mem_range.1 ht)
  unfold predictCuda
  rw [resFold_throw _ .runtime ?_ _ _ ⟨t, ht, ?_⟩]
  · rfl
  · intro t s
    simp only [lt_irrefl, if_false]
    split
    · exact Or.inr rfl
    · split
      · exact Or.inl ⟨_, rfl⟩
      · exact Or.inr rfl
  · intro s
    simp only [lt_irrefl, if_false]
    split
    · rfl
    rw [if_neg]
    intro hinv
    have h1 := mem_workRange.1 hm
    have h2 := hinv (i.val - groupBegin 0 G t) (by omega)
    rw [loadGroup_in W s.1 hm] at h2
    exact hi ((gram_posDef_iff_determined x (W i) (hW i)).1 (gram_posSemidef x (W i) (hW i) h2))

/-- **C124 (prediction).** At as many places as there are observations, at least as many as the group size: a GPU prediction succeeds exactly if at
every place the observations of positive weight determine the coefficients; the coefficients are those of the regressions weighted by the kernel of
the distances from the place. (Any other number of places fails: C33.) -/
theorem C124_gpu_predict_partial (G : ℕ) (hG : 0 < G) (hn : G ≤ n) (geo : Bool) (par : Option (DynMat × DynMat)) (b : BandwidthWeight)
    (locations coords : DynMat) (hl : FitsData locations n) (hc : FitsData coords n) (dist w : Fin n → Fin n → ℝ)
    (hd : IsMapDistance geo locations coords dist) (hb : UsableRadius b dist) (hg : DeviceBandwidth b dist) (hw : IsKernelWeight b dist w)
    (x : Matrix (Fin n) (Fin k) ℝ) (y : Fin n → ℝ) :
    ((∀ i, Determined x (w i)) → ∃ B, gpuPredict G ⟨geo, par⟩ b locations coords x y = .ok B ∧ ∀ i, IsWLS x y (w i) (B i)) ∧
    ((∃ i, ¬ Determined x (w i)) → gpuPredict G ⟨geo, par⟩ b locations coords x y = .throw .runtime) := by
  obtain ⟨W, h1, h2, h3⟩ := kernelRows hl.2 hc.2 hd hb id
  obtain rfl := kernelWeight_unique h2 hw
  have hgpu : weightRowsCuda ⟨geo, some (locations, coords)⟩ b n n = .ok W := (gpu_weights hl.2 hc.2 hd hb hg).trans h1
  have hbind : bindLocations ⟨geo, par⟩ locations coords = .ok ⟨geo, some (locations, coords)⟩ := bindLocations_eq_ok.2 ⟨hl.1, hc.1, rfl⟩
  unfold gpuPredict
  rw [hbind, Res.bind, hgpu, Res.bind]
  refine ⟨fun h => ?_, fun h => predict_singular_reported h3 hG h⟩
  have hr : ∀ i ∈ List.finRange n, localBeta x y (W i) = .ok ((xtwx x (W i))⁻¹ *ᵥ (xtw x (W i) *ᵥ y)) := fun i _ =>
    localBeta_eq_ok.2 ⟨(gram_posDef_iff_determined x (W i) (h3 i)).2 (h i), rfl⟩
  have e : predictSerial x y W NoStop = _ := serialFor_ok _ _ 0 _ (fun _ _ => rfl) hr
  exact ⟨_, C33_predict_cuda_partial x y W G hG hn _ e, C21_prediction_is_weighted_least_squares x y W NoStop _ e⟩

/-! ## C125: bandwidth selection on the GPU -/

/-- **C125 (criterion).** On the GPU, with at least as many observations as the group size and a bandwidth that means the same on both devices: where
the leave-one-out score or the corrected Akaike criterion is defined, the value that the search compares is this criterion (`DBL_MAX` if it is beyond
the range of a double). Missing: a bandwidth for which it is not defined (`C125_undefined_is_zero_fit`). -/
theorem C125_gpu_criterion_partial (c : Crit) (G : ℕ) (hG : 0 < G) (hn : G ≤ n) (g : ℕ → ℝ) (geo : Bool) (b : BandwidthWeight) (coords : DynMat)
    (hc : FitsData coords n) (dist w : Fin n → Fin n → ℝ) (hd : IsMapDistance geo coords coords dist) (hb : UsableRadius b dist)
    (hg : DeviceBandwidth b dist) (hw : IsKernelWeight b dist w) (x : Matrix (Fin n) (Fin k) ℝ) (y : Fin n → ℝ) (v : ℝ)
    (hv : IsGWRScore c x y w v) :
    gpuCriterion c G g ⟨geo, some (coords, coords)⟩ x y b = if |v| ≤ dblMax then v else dblMax := by
  obtain ⟨W, h1, h2, h3⟩ := kernelRows hc.2 hc.2 hd hb id
  obtain rfl := kernelWeight_unique h2 hw
  have hgpu : weightRowsCuda ⟨geo, some (coords, coords)⟩ b n n = .ok W := (gpu_weights hc.2 hc.2 hd hb hg).trans h1
  rw [← (serial_criterion c (x := x) (y := y) h3).1 v hv]
  unfold gpuCriterion serialCriterion
  rw [hgpu]
  cases c with
  | CV =>
    obtain ⟨B, e, -⟩ := cv_core h3 hv
    simp only [e, C33_cv_cuda_partial x y W G hG hn B e]
  | AIC =>
    obtain ⟨B, C, e1, -⟩ := hv
    obtain ⟨s, e, -⟩ := aic_core h3 e1
    obtain ⟨q1, q2, -⟩ := C33_shat_cuda x y W G hG hn g B s e
    simp only [e]
    unfold criterionAIC
    simp only [q1, q2]

/-- What is said of a fit on the GPU after a bandwidth search `r`: the kernel and the kind of bandwidth are the configured ones; the bandwidth is one the
search tried, and none of those tried has a smaller value; for every tried bandwidth that means the same on both devices, the value compared is its
criterion, if that is defined; and, if the selected bandwidth means the same on both devices, everything reported belongs to the regressions with it. -/
def IsGpuSearchedFit (c : Crit) (b0 : BandwidthWeight) (dist : Fin n → Fin n → ℝ) (x : Matrix (Fin n) (Fin k) ℝ) (y : Fin n → ℝ)
    (sS sC : Bool) (r : SearchResult) (rep : GWRReport n k) : Prop :=
    rep.weight.mKernel = b0.mKernel ∧ rep.weight.mAdaptive = b0.mAdaptive ∧
    (∃ e ∈ r.evals, e.x = rep.weight.mBandwidth ∧ ∀ e' ∈ r.evals, e.f ≤ e'.f) ∧
    (∀ e ∈ r.evals, UsableRadius { b0 with mBandwidth := e.x } dist → DeviceBandwidth { b0 with mBandwidth := e.x } dist →
      ∀ w, IsKernelWeight { b0 with mBandwidth := e.x } dist w → ∀ v, IsGWRScore c x y w v → |v| ≤ dblMax → e.f = v) ∧
    (UsableRadius rep.weight dist → DeviceBandwidth rep.weight dist → ∀ w, IsKernelWeight rep.weight dist w → ∃ C, IsGWRReport x y w sS sC rep C)

theorem gpu_auto_core (c : Crit) {G : ℕ} (hG : 0 < G) (hn : G ≤ n) {g : ℕ → ℕ → ℝ} {geo : Bool}
    {b0 : BandwidthWeight} {lower upper : Option ℝ} {coords : DynMat} (hc : FitsData coords n)
    {dist : Fin n → Fin n → ℝ} (hd : IsMapDistance geo coords coords dist) {x : Matrix (Fin n) (Fin k) ℝ} {y : Fin n → ℝ} {sS sC : Bool}
    {r' : SearchResult} {b : BandwidthWeight} {g' : GWRReport n k} (hr : gpuSearch c G g ⟨geo, some (coords, coords)⟩ b0 lower upper x y = .ok r')
    (ho : r'.out = .ok b) (hg : gpuFinish G ⟨geo, some (coords, coords)⟩ b x y sS sC = .ok g') :
    IsGpuSearchedFit c b0 dist x y sS sC r' g' := by
  unfold gpuSearch at hr
  obtain ⟨u, -, hr⟩ := Res.bind_eq_ok'.1 hr
  cases Res.ok.inj hr
  have hk := optimize_kind _ _ _ _ _ ho
  have hev := evals_oracle b0 (lower.getD (if b0.mAdaptive then 20 else 0)) u
    (fun j b => (true, gpuCriterion c G (g j) ⟨geo, some (coords, coords)⟩ x y b)) []
  have hgw : g'.weight = b := by
    unfold gpuFinish at hg
    obtain ⟨W, -, hg⟩ := Res.bind_eq_ok'.1 hg
    obtain ⟨a, -, hg⟩ := Res.bind_eq_ok'.1 hg
    cases Res.ok.inj hg; rfl
  unfold IsGpuSearchedFit
  rw [hgw]
  refine ⟨by rw [hk], by rw [hk], ?_, fun e he hu hde w hw v hv hle => ?_, fun hu hde w hw => ?_⟩
  · refine C14_returns_best_evaluated _ _ _ _ _ _ ho fun e he => ?_
    obtain ⟨j, hj⟩ := hev e he
    exact (Prod.mk.inj hj).1.symm
  · obtain ⟨j, hj⟩ := hev e he
    have c1 := C125_gpu_criterion_partial c G hG hn (g j) geo _ coords hc dist w hd hu hde hw x y v hv
    rw [← (Prod.mk.inj hj).2]
    rw [c1, if_pos hle]
  · obtain ⟨f1, f2⟩ := C124_gpu_fit_partial G hG hn geo none b coords hc dist w hd hu hde hw x y sS sC
    have hrun : gpuRun G ⟨geo, none⟩ b coords x y sS sC = .ok g' := by
      unfold gpuRun
      rw [bindLocations_eq_ok.2 ⟨hc.1, hc.1, rfl⟩]
      exact hg
    by_cases hdet : ∀ i, Determined x (w i)
    · obtain ⟨g2, C, e, -, -, hC⟩ := f1 hdet
      cases Res.ok.inj (hrun.symm.trans e)
      exact ⟨C, hC⟩
    · push Not at hdet
      rw [f2 hdet] at hrun; cases hrun

/-- **C125 (run).** A completed fit on the GPU with automatic bandwidth selection, between any bounds: the kernel and the kind of bandwidth are the
configured ones; the bandwidth is one the search tried, and none of those tried has a smaller value; for every tried bandwidth that means the same on
both devices, the value compared is its leave-one-out score or corrected Akaike criterion, if that is defined; and, if the selected bandwidth means the
same on both devices, everything reported belongs to the regressions with this bandwidth. -/
theorem C125_gpu_auto_fit_partial (c : Crit) (G : ℕ) (hG : 0 < G) (hn : G ≤ n) (g : ℕ → ℕ → ℝ) (geo : Bool) (par : Option (DynMat × DynMat))
    (b0 : BandwidthWeight) (lower upper : Option ℝ) (coords : DynMat) (hc : FitsData coords n)
    (dist : Fin n → Fin n → ℝ) (hd : IsMapDistance geo coords coords dist) (x : Matrix (Fin n) (Fin k) ℝ) (y : Fin n → ℝ) (sS sC : Bool)
    (r : SearchResult) (rep : GWRReport n k) (h : gpuAutoRun c G g ⟨geo, par⟩ b0 lower upper coords x y sS sC = .ok (r, rep)) :
    IsGpuSearchedFit c b0 dist x y sS sC r rep := by
  unfold gpuAutoRun at h
  obtain ⟨d', hb, h⟩ := Res.bind_eq_ok'.1 h
  obtain ⟨-, -, rfl⟩ := bindLocations_eq_ok.1 hb
  obtain ⟨r', hr, h⟩ := Res.bind_eq_ok'.1 h
  obtain ⟨b, ho, h⟩ := Res.bind_eq_ok'.1 h
  obtain ⟨g', hg, h⟩ := Res.bind_eq_ok'.1 h
  simp only [Res.ok.injEq, Prod.mk.injEq] at h
  obtain ⟨rfl, rfl⟩ := h
  exact gpu_auto_core c hG hn hc hd hr ho hg

theorem quiet_stays {f : QuietState n k → ℕ → QuietState n k} (hf : ∀ s i, s.success = false → f s i = s) :
    ∀ (l : List ℕ) (s : QuietState n k), s.success = false → l.foldl f s = s
  | [], _, _ => rfl
  | i :: l, s, hs => by
    rw [List.foldl_cons, hf s i hs]
    exact quiet_stays hf l s hs

theorem cv_quiet_zero {x : Matrix (Fin n) (Fin k) ℝ} (y : Fin n → ℝ) {W : Fin n → Fin n → ℝ} (hW : ∀ i l, 0 ≤ W i l) {G : ℕ} (hG : 0 < G)
    (hn : G ≤ n) {i : Fin n} (hi : i.val < G) (h : ¬ Determined x (cvWeight W i)) : fitCoreCVCuda x y W 0 n G = 0 := by
  have hg : ∃ c, cudaGroups 0 n G = c + 1 := by
    refine ⟨cudaGroups 0 n G - 1, ?_⟩
    have : 0 < n / G := Nat.div_pos hn hG
    unfold cudaGroups
    simp only [Nat.sub_zero]
    omega
  obtain ⟨c, hg⟩ := hg
  have hl : groupLength n G 0 = G := by unfold groupLength; rw [if_neg (by omega)]
  have hinv : ¬ allInvertible x G (loadGroup (cvWeight W) 0 G fun _ => 0) := by
    intro hinv
    have h2 := hinv i.val hi
    unfold loadGroup at h2
    rw [dif_pos ⟨hi, by omega⟩] at h2
    simp only [Nat.zero_add] at h2
    exact h ((gram_posDef_iff_determined x _ (looWeight_nonneg hW i)).1 (gram_posSemidef x _ (looWeight_nonneg hW i) h2))
  unfold fitCoreCVCuda
  rw [hg, List.range_succ_eq_map, List.foldl_cons]
  simp only [groupBegin, Nat.zero_mul, Nat.add_zero, hl, Bool.true_eq_false, if_false, if_neg hinv]
  rw [quiet_stays _ _ _ rfl]
  intro s i hs
  rw [if_pos hs]

theorem shat_quiet_zero {x : Matrix (Fin n) (Fin k) ℝ} (y : Fin n → ℝ) {W : Fin n → Fin n → ℝ} (hW : ∀ i l, 0 ≤ W i l) {G : ℕ} (hG : 0 < G)
    (hn : G ≤ n) (g : ℕ → ℝ) {i : Fin n} (hi : i.val < G) (h : ¬ Determined x (W i)) : fitCoreSHatCuda x y W 0 n G g = (0, 0) := by
  have hg : ∃ c, cudaGroups 0 n G = c + 1 := by
    refine ⟨cudaGroups 0 n G - 1, ?_⟩
    have : 0 < n / G := Nat.div_pos hn hG
    unfold cudaGroups
    simp only [Nat.sub_zero]
    omega
  obtain ⟨c, hg⟩ := hg
  have hl : groupLength n G 0 = G := by unfold groupLength; rw [if_neg (by omega)]
  have hinv : ¬ allInvertible x G (loadGroup W 0 G fun _ => 0) := by
    intro hinv
    have h2 := hinv i.val hi
    unfold loadGroup at h2
    rw [dif_pos ⟨hi, by omega⟩] at h2
    simp only [Nat.zero_add] at h2
    exact h ((gram_posDef_iff_determined x _ (hW i)).1 (gram_posSemidef x _ (hW i) h2))
  unfold fitCoreSHatCuda
  rw [hg, List.range_succ_eq_map, List.foldl_cons]
  simp only [groupBegin, Nat.zero_mul, Nat.add_zero, hl, Bool.true_eq_false, if_false, if_neg hinv]
  rw [quiet_stays _ _ _ rfl]
  intro s i hs
  rw [if_pos hs]

/-- **C125 (undefined score), refuted.** A bandwidth for which leaving out some observation leaves too few observations has no leave-one-out score, and
the CPU never prefers it: it counts as `DBL_MAX`. On the GPU, if this happens at one of the first `G` observations (`G` the group size), the bandwidth
is scored, without any sign of failure, as if all coefficients were zero: with the sum of squares of the response. -/
theorem C125_undefined_is_zero_fit (G : ℕ) (hG : 0 < G) (hn : G ≤ n) (g : ℕ → ℝ) (geo : Bool) (b : BandwidthWeight) (coords : DynMat)
    (hc : FitsData coords n) (dist w : Fin n → Fin n → ℝ) (hd : IsMapDistance geo coords coords dist) (hb : UsableRadius b dist)
    (hg : DeviceBandwidth b dist) (hw : IsKernelWeight b dist w) (x : Matrix (Fin n) (Fin k) ℝ) (y : Fin n → ℝ)
    (hv : ∃ i : Fin n, i.val < G ∧ ¬ Determined x fun l => if l = i then 0 else w i l) (hy : ∑ i, y i ^ 2 ≤ dblMax) :
    gwrCriterionEx .CV ⟨geo, some (coords, coords)⟩ x y b .serial = dblMax ∧
    gpuCriterion .CV G g ⟨geo, some (coords, coords)⟩ x y b = ∑ i, y i ^ 2 := by
  obtain ⟨W, h1, h2, h3⟩ := kernelRows hc.2 hc.2 hd hb id
  obtain rfl := kernelWeight_unique h2 hw
  have hgpu : weightRowsCuda ⟨geo, some (coords, coords)⟩ b n n = .ok W := (gpu_weights hc.2 hc.2 hd hb hg).trans h1
  obtain ⟨i, hi, hdet⟩ := hv
  have hcv : ¬ Determined x (cvWeight W i) := by rw [cvWeight_eq]; exact hdet
  constructor
  · refine (C119_criterion .CV .serial trivial geo b coords hc dist W hd hb hw x y).2 rfl ?_
    rintro ⟨v, B, hB, -⟩
    refine hdet (wls_determined (fun l => ?_) (hB i))
    split
    · exact le_rfl
    · exact h3 i l
  · unfold gpuCriterion
    rw [hgpu]
    simp only [cv_quiet_zero y h3 hG hn hi hcv]
    have : rss x y (0 : Matrix (Fin n) (Fin k) ℝ) = ∑ i, y i ^ 2 := by
      unfold rss
      simp [fitted, sq]
    simp only [criterionCV, and_self, if_true, finiteOrMax, this]
    rw [if_pos]
    rw [abs_of_nonneg (Finset.sum_nonneg fun i _ => sq_nonneg _)]
    exact hy

/-! ### A search on two observations -/

/-- Two observations, one apart. -/
def duoCoords : DynMat := ⟨2, 2, fun i k => if k = 0 then i else 0⟩

/-- The intercept of two observations. -/
def duoX : Matrix (Fin 2) (Fin 1) ℝ := fun _ _ => 1

/-- Two opposite responses. -/
def duoY : Fin 2 → ℝ := ![1, -1]

/-- The distances of the two observations. -/
def duoDist : Fin 2 → Fin 2 → ℝ := fun i l => if i = l then 0 else 1

/-- The boxcar weights of the two observations. -/
noncomputable def duoW (bw : ℝ) : Fin 2 → Fin 2 → ℝ := fun i l => kernelFormula .Boxcar bw (duoDist i l)

theorem duo_fits : FitsData duoCoords 2 := ⟨rfl, rfl⟩

theorem duo_distance : IsMapDistance false duoCoords duoCoords duoDist := by
  rw [mapDistance_calc]
  intro i l
  fin_cases i <;> fin_cases l <;> simp [crsCalc, euclid, duoCoords, duoDist]

theorem duo_kernel (bw : ℝ) : IsKernelWeight ⟨bw, false, .Boxcar⟩ duoDist (duoW bw) := fun i =>
  ⟨bw, by simp [IsRadius], fun l => rfl⟩

theorem duo_device {bw : ℝ} (h0 : 0 < bw) (h1 : bw ≠ 1) (h2 : bw ≤ 2) : DeviceBandwidth ⟨bw, false, .Boxcar⟩ duoDist := by
  refine ⟨fun _ => ?_, fun h => absurd h (by simp), fun _ i r hr l => ?_⟩
  · have := hundred_lt_dblMax
    dsimp only; linarith
  · have : r = bw := by simpa [IsRadius] using hr
    subst this
    unfold duoDist
    split
    · exact h0.ne
    · exact fun h => h1 h.symm

/-- Beyond the distance of the two, each is predicted by the other: the score is 8. -/
theorem duo_score {bw : ℝ} (h : 1 < bw) : IsGWRScore .CV duoX duoY (duoW bw) 8 := by
  refine ⟨fun i _ => - duoY i, fun i => ?_, ?_⟩
  · intro c hc
    have hne : c 0 ≠ - duoY i := fun e => hc (by funext j; fin_cases j; exact e)
    have h0 : (0 : ℝ) < bw := by linarith
    fin_cases i
    · have : -1 - c 0 ≠ 0 := fun e => hne (by simp [duoY]; linarith)
      have := pow_pos (abs_pos.2 this) 2
      simpa [wss, Fin.sum_univ_two, duoW, duoX, duoY, duoDist, kernelFormula, h, h0] using this
    · have : 1 - c 0 ≠ 0 := fun e => hne (by simp [duoY]; linarith)
      have := pow_pos (abs_pos.2 this) 2
      simpa [wss, Fin.sum_univ_two, duoW, duoX, duoY, duoDist, kernelFormula, h, h0] using this
  · simp [residualSS, duoX, duoY, Fin.sum_univ_two]
    norm_num

/-- Up to the distance of the two there is no score. -/
theorem duo_undetermined {bw : ℝ} (h : bw ≤ 1) (i : Fin 2) : ¬ Determined duoX fun l => if l = i then 0 else duoW bw i l := by
  intro hd
  have := hd (fun _ => 1) fun l hl => by
    exfalso
    revert hl
    fin_cases i <;> fin_cases l <;> simp [duoW, duoDist, kernelFormula, not_lt.2 h]
  exact one_ne_zero (congrFun this 0)

theorem duo_serial {bw : ℝ} (h0 : 0 < bw) :
    (1 < bw → gwrCriterionEx .CV ⟨false, some (duoCoords, duoCoords)⟩ duoX duoY ⟨bw, false, .Boxcar⟩ .serial = 8) ∧
    (bw ≤ 1 → gwrCriterionEx .CV ⟨false, some (duoCoords, duoCoords)⟩ duoX duoY ⟨bw, false, .Boxcar⟩ .serial = dblMax) := by
  obtain ⟨c1, c2⟩ := C119_criterion .CV .serial trivial false ⟨bw, false, .Boxcar⟩ duoCoords duo_fits duoDist (duoW bw) duo_distance
    (usable_fixed h0 _ _) (duo_kernel bw) duoX duoY
  refine ⟨fun h => ?_, fun h => c2 rfl ?_⟩
  · rw [c1 8 (duo_score h), if_pos]
    rw [abs_of_pos (by norm_num)]
    have := hundred_lt_dblMax
    linarith
  · rintro ⟨v, B, hB, -⟩
    refine duo_undetermined h 0 (wls_determined (fun l => ?_) (hB 0))
    split
    · exact le_rfl
    · exact kernelFormula_nonneg _ h0 _

theorem duo_gpu (g : ℕ → ℝ) {bw : ℝ} (h0 : 0 < bw) (h2 : bw ≤ 2) :
    (1 < bw → gpuCriterion .CV 2 g ⟨false, some (duoCoords, duoCoords)⟩ duoX duoY ⟨bw, false, .Boxcar⟩ = 8) ∧
    (bw < 1 → gpuCriterion .CV 2 g ⟨false, some (duoCoords, duoCoords)⟩ duoX duoY ⟨bw, false, .Boxcar⟩ = 2) := by
  have hbig := hundred_lt_dblMax
  refine ⟨fun h => ?_, fun h => ?_⟩
  · rw [C125_gpu_criterion_partial .CV 2 (by norm_num) le_rfl g false ⟨bw, false, .Boxcar⟩ duoCoords duo_fits duoDist (duoW bw) duo_distance
      (usable_fixed h0 _ _) (duo_device h0 h.ne' h2) (duo_kernel bw) duoX duoY 8 (duo_score h), if_pos]
    rw [abs_of_pos (by norm_num)]
    linarith
  · have hy : ∑ i, duoY i ^ 2 = 2 := by simp [duoY, Fin.sum_univ_two]; norm_num
    rw [(C125_undefined_is_zero_fit 2 (by norm_num) le_rfl g false ⟨bw, false, .Boxcar⟩ duoCoords duo_fits duoDist (duoW bw) duo_distance
      (usable_fixed h0 _ _) (duo_device h0 h.ne h2) (duo_kernel bw) duoX duoY ⟨0, by norm_num, duo_undetermined h.le 0⟩ (by rw [hy]; linarith)).2]
    exact hy

/-- The two starting bandwidths are among those tried. -/
theorem evals_start (bw : BandwidthWeight) (l u : ℝ) (o : Oracle) (m : List (ℝ × ℝ)) :
    ∀ e ∈ (goldenInit bw l u o m).evals, e ∈ (optimize bw l u o m).evals := by
  intro e he
  have key := (goldenLoop_induct (bw := bw) (o := o) (P := fun s => e ∈ s.evals)
    (fun s h _ => by
      unfold goldenStep
      dsimp only
      split <;> exact List.mem_append_left _ h) (s := goldenStart bw l u o m) he).1
  rcases optimize_cases bw l u o m with ⟨-, he'⟩ | ⟨-, -, -, -, he'⟩ | ⟨-, -, -, -, -, he'⟩ | ⟨-, -, -, -, he'⟩ <;> rw [he']
  · exact he
  · exact he
  · exact key
  · exact key

/-- A search that always succeeds selects a bandwidth at least as good as any one tried. -/
theorem duo_search {l u : ℝ} (hlu : l ≤ u) {f : ℕ → ℝ → ℝ} (o : Oracle) (ho : ∀ j x, o j ⟨x, false, .Boxcar⟩ = (true, f j x)) {P : ℝ → Prop} {V : ℝ} (hV : V < dblMax)
    (h1 : ∃ e ∈ (goldenInit ⟨1, false, .Boxcar⟩ l u o []).evals, e.f ≤ V) (h2 : ∀ j x, l ≤ x → x ≤ u → f j x ≤ V → P x) :
    ∃ b, (optimize ⟨1, false, .Boxcar⟩ l u o []).out = .ok b ∧ P b.mBandwidth := by
  obtain ⟨e, he, hle⟩ := h1
  have hev := evals_oracle ⟨1, false, .Boxcar⟩ l u o []
  have hall : ∀ e ∈ (optimize ⟨1, false, .Boxcar⟩ l u o []).evals, e.success = true := fun e he => by
    obtain ⟨j, hj⟩ := hev e he
    rw [ho] at hj
    exact (Prod.mk.inj hj).1.symm
  have hin := evals_start ⟨1, false, .Boxcar⟩ l u o [] e he
  have hnt := (C17_failure_protocol ⟨1, false, .Boxcar⟩ l u o []).2
  cases hout : (optimize ⟨1, false, .Boxcar⟩ l u o []).out with
  | ok b =>
    refine ⟨b, rfl, ?_⟩
    obtain ⟨e', he', hx, hmin⟩ := C14_returns_best_evaluated _ _ _ _ _ _ hout hall
    obtain ⟨j, hj⟩ := hev e' he'
    rw [ho] at hj
    have hb := (C15_fixed_within_bounds ⟨1, false, .Boxcar⟩ rfl l u hlu o []).1 e' he'
    rw [← hx]
    refine h2 j _ hb.1 hb.2 ?_
    rw [(Prod.mk.inj hj).2]
    exact (hmin e hin).trans hle
  | throw er =>
    exfalso
    obtain ⟨e1, e2, h12, -, -, f1, f2⟩ := hnt.1 ⟨er, hout⟩
    rw [h12] at hin
    simp only [List.mem_cons, List.not_mem_nil, or_false] at hin
    rcases hin with rfl | rfl <;> linarith
  | ub =>
    exfalso
    rcases optimize_cases ⟨1, false, .Boxcar⟩ l u o [] with ⟨-, he'⟩ | ⟨-, -, -, -, he'⟩ | ⟨-, -, -, -, -, he'⟩ | ⟨-, -, -, -, he'⟩ <;>
      rw [he'] at hout <;> cases hout
  | nonfinite =>
    exfalso
    rcases optimize_cases ⟨1, false, .Boxcar⟩ l u o [] with ⟨-, he'⟩ | ⟨-, -, -, -, he'⟩ | ⟨-, -, -, -, -, he'⟩ | ⟨-, -, -, -, he'⟩ <;>
      rw [he'] at hout <;> cases hout

/-- **C125 (search), refuted.** Two observations one apart with responses 1 and -1, an intercept, a boxcar kernel and bandwidths between 0.1 and 2:
only bandwidths above 1 have a leave-one-out score, and the CPU selects one of these. On the GPU, in groups of two, the search selects a bandwidth
that has none. -/
theorem C125_gpu_search_prefers_undefined (g : ℕ → ℕ → ℝ) :
    (∃ r b, gwrSearchEx .CV (fun _ => .serial) ⟨false, some (duoCoords, duoCoords)⟩ ⟨1, false, .Boxcar⟩ (some 0.1) (some 2) duoX duoY = .ok r ∧
      r.out = .ok b ∧ 1 < b.mBandwidth) ∧
    ∃ r b, gpuSearch .CV 2 g ⟨false, some (duoCoords, duoCoords)⟩ ⟨1, false, .Boxcar⟩ (some 0.1) (some 2) duoX duoY = .ok r ∧
      r.out = .ok b ∧ b.mBandwidth ≤ 1 := by
  obtain ⟨g1, g2⟩ := goldenR_bounds
  have hbig := hundred_lt_dblMax
  constructor
  · obtain ⟨b, hb, hP⟩ := duo_search (l := 0.1) (u := 2) (by norm_num) (f := fun _ x => gwrCriterionEx .CV ⟨false, some (duoCoords, duoCoords)⟩ duoX duoY ⟨x, false, .Boxcar⟩ .serial)
      (P := fun x => 1 < x) (V := 8) (fun _ b => (true, gwrCriterionEx .CV ⟨false, some (duoCoords, duoCoords)⟩ duoX duoY b .serial))
      (fun _ _ => rfl) (by linarith) ⟨_, List.mem_cons_self, by
        simp only [goldenInit, Bool.false_eq_true, if_false]
        exact ((duo_serial (by linarith)).1 (by linarith)).le⟩ (fun j x hl hu hf => by
        by_contra hx
        rw [(duo_serial (by linarith)).2 (not_lt.1 hx)] at hf
        linarith)
    exact ⟨_, b, rfl, hb, hP⟩
  · obtain ⟨b, hb, hP⟩ := duo_search (l := 0.1) (u := 2) (by norm_num) (f := fun j x => gpuCriterion .CV 2 (g j) ⟨false, some (duoCoords, duoCoords)⟩ duoX duoY ⟨x, false, .Boxcar⟩)
      (P := fun x => x ≤ 1) (V := 2) (fun j b => (true, gpuCriterion .CV 2 (g j) ⟨false, some (duoCoords, duoCoords)⟩ duoX duoY b))
      (fun _ _ => rfl) (by linarith) ⟨_, List.mem_cons_of_mem _ List.mem_cons_self, by
        simp only [goldenInit, Bool.false_eq_true, if_false]
        exact ((duo_gpu _ (by linarith) (by linarith)).2 (by linarith)).le⟩ (fun j x hl hu hf => by
        by_contra hx
        rw [(duo_gpu _ (by linarith) hu).1 (not_le.1 hx)] at hf
        linarith)
    exact ⟨_, b, rfl, hb, hP⟩

theorem duo_determined {bw : ℝ} (h0 : 0 < bw) (i : Fin 2) : Determined duoX (duoW bw i) := by
  intro c hc
  have := hc i (by simp [duoW, duoDist, kernelFormula, h0])
  funext j
  fin_cases j
  simpa [duoX] using this

/-- The hypotheses of the theorems of C124 are met: a whole GPU fit of the two observations, and a prediction at their places. -/
example (sS sC : Bool) : (∃ g C, gpuRun 2 ⟨false, none⟩ ⟨1.5, false, .Boxcar⟩ duoCoords duoX duoY sS sC = .ok g ∧
      IsGWRReport duoX duoY (duoW 1.5) sS sC g C) ∧
    (∃ B, gpuPredict 2 ⟨false, none⟩ ⟨1.5, false, .Boxcar⟩ duoCoords duoCoords duoX duoY = .ok B) ∧
    gpuRun 64 ⟨false, none⟩ ⟨1.5, false, .Boxcar⟩ duoCoords duoX duoY sS sC = .throw .runtime := by
  have hu : UsableRadius ⟨1.5, false, .Boxcar⟩ duoDist := usable_fixed (by norm_num) _ _
  have hg : DeviceBandwidth ⟨1.5, false, .Boxcar⟩ duoDist := duo_device (by norm_num) (by norm_num) (by norm_num)
  refine ⟨?_, ?_, C124_gpu_small_data 64 (by norm_num) (by norm_num) (by norm_num) false none _ duoCoords duo_fits duoDist duo_distance hu hg
    duoX duoY sS sC⟩
  · obtain ⟨g, C, h, -, -, hC⟩ := (C124_gpu_fit_partial 2 (by norm_num) le_rfl false none _ duoCoords duo_fits duoDist (duoW 1.5) duo_distance hu hg
      (duo_kernel 1.5) duoX duoY sS sC).1 fun i => duo_determined (by norm_num) i
    exact ⟨g, C, h, hC⟩
  · obtain ⟨B, h, -⟩ := (C124_gpu_predict_partial 2 (by norm_num) le_rfl false none _ duoCoords duoCoords duo_fits duo_fits duoDist (duoW 1.5)
      duo_distance hu hg (duo_kernel 1.5) duoX duoY).1 fun i => duo_determined (by norm_num) i
    exact ⟨B, h⟩

/-- A completed GPU fit with automatic bandwidth selection: the hypothesis of the theorem on runs is met. -/
theorem ex_gpuAuto (g : ℕ → ℕ → ℝ) (sS sC : Bool) :
    ∃ r rep, gpuAutoRun .CV 2 g ⟨false, none⟩ ⟨1, false, .Boxcar⟩ (some 1.1) (some 2) duoCoords duoX duoY sS sC = .ok (r, rep) := by
  obtain ⟨g1, g2⟩ := goldenR_bounds
  have hbig := hundred_lt_dblMax
  obtain ⟨b, hb, h1, h2⟩ := duo_search (l := 1.1) (u := 2) (by norm_num)
    (f := fun j x => gpuCriterion .CV 2 (g j) ⟨false, some (duoCoords, duoCoords)⟩ duoX duoY ⟨x, false, .Boxcar⟩)
    (P := fun x => 1.1 ≤ x ∧ x ≤ 2) (V := 8) (fun j b => (true, gpuCriterion .CV 2 (g j) ⟨false, some (duoCoords, duoCoords)⟩ duoX duoY b))
    (fun _ _ => rfl) (by linarith) ⟨_, List.mem_cons_self, by
      simp only [goldenInit, Bool.false_eq_true, if_false]
      exact ((duo_gpu _ (by linarith) (by linarith)).1 (by linarith)).le⟩ (fun j x hl hu _ => ⟨hl, hu⟩)
  have hk := optimize_kind _ _ _ _ _ hb
  obtain ⟨bw, ad, kernel⟩ := b
  simp only [BandwidthWeight.mk.injEq, true_and] at hk
  obtain ⟨rfl, rfl⟩ := hk
  dsimp only at h1 h2
  have h0 : 0 < bw := by linarith
  obtain ⟨rep, C, h, -, -, -⟩ := (C124_gpu_fit_partial 2 (by norm_num) le_rfl false none ⟨bw, false, .Boxcar⟩ duoCoords duo_fits duoDist (duoW bw)
    duo_distance (usable_fixed h0 _ _) (duo_device h0 (by linarith) h2) (duo_kernel bw) duoX duoY sS sC).1 fun i => duo_determined h0 i
  have hbind : bindLocations ⟨false, none⟩ duoCoords duoCoords = .ok ⟨false, some (duoCoords, duoCoords)⟩ := bindLocations_eq_ok.2 ⟨rfl, rfl, rfl⟩
  unfold gpuRun at h
  rw [hbind, Res.bind] at h
  refine ⟨optimize ⟨1, false, .Boxcar⟩ 1.1 2
    (fun j b => (true, gpuCriterion .CV 2 (g j) ⟨false, some (duoCoords, duoCoords)⟩ duoX duoY b)) [], rep, ?_⟩
  unfold gpuAutoRun gpuSearch
  rw [hbind, Res.bind]
  simp only [gwrUpper, Res.bind, Option.getD_some, hb, h]

end Verif.Props

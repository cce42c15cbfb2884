import Verif.Props.MapDrawing
import Verif.Props.ModesAgree

/-! # C147: how the map is drawn does not matter for automatic selection of a number of neighbours -/

namespace Verif.Props
open Verif Verif.Model Verif.Spec Matrix Classical

variable {n k m p : ℕ}

/-! ### Weights, with every outcome -/

theorem less_scale {s : ℝ} (hs : 0 < s) (d bw : ℝ) : less (s * d) (s * bw) = less d bw := by
  unfold less
  simp only [mul_lt_mul_iff_right₀ hs]

theorem kernelAt_scale {s : ℝ} (hs : 0 < s) (K : KernelType) (d bw : ℝ) : kernelAt K (s * d) (s * bw) = kernelAt K d bw := by
  have h0 : s ≠ 0 := hs.ne'
  by_cases hb : bw = 0
  · subst hb
    cases K <;> simp [kernelAt, gaussianKernel, exponentialKernel, bisquareKernel, tricubeKernel, boxcarKernel, h0, hs, less]
    · have : s * d < 0 ↔ d < 0 := by constructor <;> intro h <;> nlinarith
      simp only [this]
  · have hsb : s * bw ≠ 0 := mul_ne_zero h0 hb
    cases K <;> simp only [kernelAt, gaussianKernel, exponentialKernel, bisquareKernel, tricubeKernel, boxcarKernel, if_neg hb, if_neg hsb, less_scale hs]
    · congr 2
      field_simp
    · congr 2
      field_simp
    · have : s * d * (s * d) / (s * bw * (s * bw)) = d * d / (bw * bw) := by field_simp
      rw [this]
    · have : s * d * (s * d) * (s * d) / (s * bw * (s * bw) * (s * bw)) = d * d * d / (bw * bw * bw) := by field_simp
      rw [this]

theorem kernelVec_scale {s : ℝ} (hs : 0 < s) (K : KernelType) (dist : Fin n → ℝ) (bw : ℝ) :
    kernelVec K (fun l => s * dist l) (s * bw) = kernelVec K dist bw := by
  unfold kernelVec
  simp only [kernelAt_scale hs]

theorem sortVec_scale {s : ℝ} (hs : 0 < s) (dist : Fin n → ℝ) : sortVec (fun l => s * dist l) = (sortVec dist).map (s * ·) := by
  unfold sortVec
  rw [show List.ofFn (fun l => s * dist l) = (List.ofFn dist).map (s * ·) from by rw [List.map_ofFn]; rfl]
  symm
  exact List.map_insertionSort (r := (· ≤ ·)) (s := (· ≤ ·)) (s * ·) _ fun a _ b _ => (mul_le_mul_iff_right₀ hs).symm

theorem foldl_max_scale {s : ℝ} (hs : 0 < s) (l : List ℝ) (x : ℝ) : (l.map (s * ·)).foldl max (s * x) = s * l.foldl max x := by
  induction l generalizing x with
  | nil => rfl
  | cons a l ih =>
    rw [List.map_cons, List.foldl_cons, List.foldl_cons, ← mul_max_of_nonneg _ _ hs.le, ih]

theorem vecMax_scale {s : ℝ} (hs : 0 < s) (dist : Fin n → ℝ) : vecMax (fun l => s * dist l) = (vecMax dist).bind fun v => .ok (s * v) := by
  unfold vecMax
  rw [show List.ofFn (fun l => s * dist l) = (List.ofFn dist).map (s * ·) from by rw [List.map_ofFn]; rfl]
  cases List.ofFn dist with
  | nil => rfl
  | cons x xs =>
    simp only [List.map_cons, Res.bind]
    rw [foldl_max_scale hs]

theorem elemAt_scale (s : ℝ) (v : List ℝ) (i : ℤ) : elemAt (v.map (s * ·)) i = (elemAt v i).bind fun a => .ok (s * a) := by
  unfold elemAt
  by_cases h : 0 ≤ i ∧ i < v.length
  · rw [dif_pos h, dif_pos (by simpa using h)]
    simp [Res.bind]
  · rw [dif_neg h, dif_neg (by simpa using h)]
    rfl

theorem adaptiveRadius_scale {s : ℝ} (hs : 0 < s) (bw : ℝ) (dist : Fin n → ℝ) :
    adaptiveRadius bw (fun l => s * dist l) = (adaptiveRadius bw dist).bind fun r => .ok (s * r) := by
  unfold adaptiveRadius
  simp only [sortVec_scale hs, vecMax_scale hs, elemAt_scale]
  split
  · cases toInt32 ⌊bw⌋ with
    | ok i =>
      simp only [bind, Res.bind]
      cases predInt32 i with
      | ok j =>
        simp only [Res.bind]
        cases elemAt (sortVec dist) j with
        | ok a =>
          simp only [Res.bind]
          cases elemAt (sortVec dist) i with
          | ok c =>
            simp only [Res.bind, pure]
            congr 1
            ring
          | _ => rfl
        | _ => rfl
      | _ => rfl
    | _ => rfl
  · cases vecMax dist with
    | ok v =>
      simp only [bind, Res.bind, pure]
      congr 1
      ring
    | _ => rfl

/-- An adaptive bandwidth gives the same weights, or the same failure, on every scale. -/
theorem weight_scale {s : ℝ} (hs : 0 < s) {b : BandwidthWeight} (ha : b.mAdaptive = true) (dist : Fin n → ℝ) :
    b.weight (fun l => s * dist l) = b.weight dist := by
  unfold BandwidthWeight.weight
  rw [if_pos ha, if_pos ha, adaptiveRadius_scale hs]
  cases adaptiveRadius b.mBandwidth dist with
  | ok r =>
    simp only [bind, Res.bind]
    exact kernelVec_scale hs _ _ _
  | _ => rfl

theorem euclid_moved {s : ℝ} (hs : 0 < s) (θ t₀ t₁ : ℝ) (p q : ℕ → ℝ) :
    euclid (movedPoint s θ t₀ t₁ p) (movedPoint s θ t₀ t₁ q) = s * euclid p q := by
  have h : ∀ p q, euclid p q = plane p q := fun p q => by unfold euclid plane; congr 1; ring
  rw [h, h, plane_moved hs]

theorem distance_moved {s : ℝ} (hs : 0 < s) (θ t₀ t₁ : ℝ) (at₀ obs : DynMat) (i : ℕ) :
    (CRSDistance.mk false (some (movedPoints s θ t₀ t₁ at₀, movedPoints s θ t₀ t₁ obs))).distance i =
      ((CRSDistance.mk false (some (at₀, obs))).distance i).bind fun l => .ok (l.map (s * ·)) := by
  unfold CRSDistance.distance
  simp only [movedPoints]
  by_cases hi : i < at₀.nRows
  · have hi' : i < (movedPoints s θ t₀ t₁ at₀).nRows := hi
    simp only [hi, if_true]
    unfold crsDistRow crsCalc
    simp only [Bool.false_eq_true, if_false]
    rw [mapRes_ok, mapRes_ok]
    simp only [Res.bind, List.map_map]
    congr 1
    refine List.map_congr_left fun j _ => ?_
    exact euclid_moved hs θ t₀ t₁ (at₀.val i) (obs.val j)
  · have hi' : ¬ i < (movedPoints s θ t₀ t₁ at₀).nRows := hi
    simp only [hi, if_false]
    rfl

theorem row_moved {s : ℝ} (hs : 0 < s) (θ t₀ t₁ : ℝ) (at₀ obs : DynMat) (i : ℕ) :
    crsDistRow false (movedPoints s θ t₀ t₁ at₀) (movedPoints s θ t₀ t₁ obs) i = (crsDistRow false at₀ obs i).bind fun l => .ok (l.map (s * ·)) := by
  unfold crsDistRow crsCalc
  simp only [Bool.false_eq_true, if_false]
  rw [mapRes_ok, mapRes_ok]
  simp only [Res.bind, List.map_map]
  congr 1
  refine List.map_congr_left fun j _ => ?_
  exact euclid_moved hs θ t₀ t₁ (at₀.val i) (obs.val j)

/-- The largest distance is the same when the map is only turned and shifted. -/
theorem maxDistance_moved (θ t₀ t₁ : ℝ) (at₀ obs : DynMat) :
    (CRSDistance.mk false (some (movedPoints 1 θ t₀ t₁ at₀, movedPoints 1 θ t₀ t₁ obs))).maxDistance = (CRSDistance.mk false (some (at₀, obs))).maxDistance := by
  unfold CRSDistance.maxDistance
  have h : crsDistRow false (movedPoints 1 θ t₀ t₁ at₀) (movedPoints 1 θ t₀ t₁ obs) = crsDistRow false at₀ obs := by
    funext i
    rw [row_moved one_pos]
    cases crsDistRow false at₀ obs i <;> simp [Res.bind]
  simp only [h]
  rfl

/-- The weights of an adaptive bandwidth, with every outcome, are the same on every planar map; those of a fixed bandwidth on maps of the same scale. -/
theorem weightRows_moved {s : ℝ} (hs : 0 < s) (θ t₀ t₁ : ℝ) (at₀ obs : DynMat) {b : BandwidthWeight} (ha : b.mAdaptive = true ∨ s = 1) (n m : ℕ) :
    weightRows ⟨false, some (movedPoints s θ t₀ t₁ at₀, movedPoints s θ t₀ t₁ obs)⟩ b n m = weightRows ⟨false, some (at₀, obs)⟩ b n m := by
  unfold weightRows weightVector
  congr 1
  funext i
  rw [distance_moved hs]
  cases (CRSDistance.mk false (some (at₀, obs))).distance i.val with
  | ok l =>
    simp only [Res.bind]
    unfold rowToVec
    by_cases hl : l.length = n
    · rw [dif_pos hl, dif_pos (by simpa using hl)]
      simp only [Res.bind, List.getElem_map]
      rcases ha with ha | rfl
      · exact weight_scale hs ha _
      · simp only [one_mul]
    · rw [dif_neg hl, dif_neg (by simpa using hl)]
  | _ => rfl

/-! ### Runs -/

theorem bind_moved (s θ t₀ t₁ : ℝ) (par par' : Option (DynMat × DynMat)) (coords : DynMat) {α : Type*} {f g : CRSDistance → Res α}
    (h : f ⟨false, some (movedPoints s θ t₀ t₁ coords, movedPoints s θ t₀ t₁ coords)⟩ = g ⟨false, some (coords, coords)⟩) :
    (bindLocations ⟨false, par'⟩ (movedPoints s θ t₀ t₁ coords) (movedPoints s θ t₀ t₁ coords)).bind f = (bindLocations ⟨false, par⟩ coords coords).bind g := by
  by_cases hc : coords.nCols = 2
  · have hc' : (movedPoints s θ t₀ t₁ coords).nCols = 2 := hc
    rw [bindLocations_eq_ok.2 ⟨hc, hc, rfl⟩]
    rw [bindLocations_eq_ok.2 ⟨hc', hc', rfl⟩]
    exact h
  · have e : ∀ (q : Option (DynMat × DynMat)) (c : DynMat), c.nCols ≠ 2 → bindLocations ⟨false, q⟩ c c = .throw .runtime := by
      intro q c h
      unfold bindLocations CRSDistance.makeParameter
      simp [DistParam.getMat, h]
    have hc' : (movedPoints s θ t₀ t₁ coords).nCols ≠ 2 := hc
    rw [e _ coords hc, e _ (movedPoints s θ t₀ t₁ coords) hc']
    rfl

theorem upper_moved {s : ℝ} (θ t₀ t₁ : ℝ) (coords : DynMat) {b0 : BandwidthWeight} (ha : b0.mAdaptive = true ∨ s = 1) (n : ℕ) :
    (if b0.mAdaptive = true then Res.ok (n : ℝ) else (CRSDistance.mk false (some (movedPoints s θ t₀ t₁ coords, movedPoints s θ t₀ t₁ coords))).maxDistance) =
      if b0.mAdaptive = true then Res.ok (n : ℝ) else (CRSDistance.mk false (some (coords, coords))).maxDistance := by
  rcases ha with ha | rfl
  · rw [if_pos ha, if_pos ha]
  · rw [maxDistance_moved]

theorem out_adaptive {s : ℝ} {b0 b : BandwidthWeight} {l u : ℝ} {o : Oracle} {q : List (ℝ × ℝ)} (ha : b0.mAdaptive = true ∨ s = 1)
    (h : (optimize b0 l u o q).out = .ok b) : b.mAdaptive = true ∨ s = 1 := by
  rw [optimize_kind b0 l u o q h]
  exact ha

/-- **C147 (selection, ridge regression).** With a number of neighbours selected automatically, the outcome, the selected bandwidth included, is the same
on every planar map, in every mode. With a selected distance, it is the same on every planar map of the same scale. -/
theorem C147_ridge_selection (sv : Matrix (Fin n) (Fin k) ℝ → ℝ × ℝ) (cfg : LcrCfg) (sched : ℕ → Exec n) (ex : Exec n) (par par' : Option (DynMat × DynMat))
    (b0 : BandwidthWeight) (coords : DynMat) (s θ t₀ t₁ : ℝ) (hs : 0 < s) (ha : b0.mAdaptive = true ∨ s = 1) (x : Matrix (Fin n) (Fin k) ℝ) (y : Fin n → ℝ) :
    lcrAutoRunIn sv cfg sched ex ⟨false, par'⟩ b0 (movedPoints s θ t₀ t₁ coords) x y = lcrAutoRunIn sv cfg sched ex ⟨false, par⟩ b0 coords x y := by
  have hW := fun (b : BandwidthWeight) (h : b.mAdaptive = true ∨ s = 1) => weightRows_moved hs θ t₀ t₁ coords coords h n n
  have hC : ∀ b : BandwidthWeight, b.mAdaptive = true ∨ s = 1 → ∀ e, lcrCriterionIn sv cfg ⟨false, some (movedPoints s θ t₀ t₁ coords, movedPoints s θ t₀ t₁ coords)⟩ x y b e =
      lcrCriterionIn sv cfg ⟨false, some (coords, coords)⟩ x y b e := by
    intro b h e
    cases e with
    | serial => simp only [lcrCriterionIn, lcrCriterion, hW b h]
    | omp evs => simp only [lcrCriterionIn, hW b h]
  unfold lcrAutoRunIn
  refine bind_moved s θ t₀ t₁ par par' coords ?_
  have hsel : lcrSelectBandwidthIn sv cfg sched ⟨false, some (movedPoints s θ t₀ t₁ coords, movedPoints s θ t₀ t₁ coords)⟩ b0 x y =
      lcrSelectBandwidthIn sv cfg sched ⟨false, some (coords, coords)⟩ b0 x y := by
    unfold lcrSelectBandwidthIn
    rw [upper_moved θ t₀ t₁ coords ha n]
    cases (if b0.mAdaptive = true then Res.ok (n : ℝ) else (CRSDistance.mk false (some (coords, coords))).maxDistance) with
    | throw _ => rfl
    | ub => rfl
    | nonfinite => rfl
    | ok u =>
    simp only [Res.bind]
    have ho := optimize_same (b := b0) (l := if b0.mAdaptive = true then 20 else 0) (u := u) (m := []) (P := fun b => b.mAdaptive = true ∨ s = 1)
      (o := fun j b => (true, lcrScoreIn sv cfg ⟨false, some (coords, coords)⟩ x y b (sched j)))
      (o' := fun j b => (true, lcrScoreIn sv cfg ⟨false, some (movedPoints s θ t₀ t₁ coords, movedPoints s θ t₀ t₁ coords)⟩ x y b (sched j)))
      (fun j w hw => by simp only [lcrScoreIn, hC w hw]) fun e _ => ha
    rw [ho]
    have hC' := fun t => hC { b0 with mBandwidth := t } ha
    simp only [hC']
  rw [hsel]
  cases hr : lcrSelectBandwidthIn sv cfg sched ⟨false, some (coords, coords)⟩ b0 x y with
  | ok r =>
    simp only [Res.bind]
    cases hb : r.out with
    | ok b =>
      have hab : b.mAdaptive = true ∨ s = 1 := by
        unfold lcrSelectBandwidthIn at hr
        obtain ⟨u, -, hr⟩ := Res.bind_eq_ok'.1 hr
        generalize (if b0.mAdaptive = true then (20 : ℝ) else 0) = l at hr
        dsimp only at hr
        split at hr
        · rw [← Res.ok.inj hr] at hb
          exact out_adaptive ha hb
        · cases hr
      simp only [lcrFinishIn, hW b hab]
    | _ => rfl
  | _ => rfl

/-- **C147 (selection, generalised regression).** The same for Poisson and binomial regression, by either criterion, in every mode. -/
theorem C147_generalised_selection (F : Family) (tol : ℝ) (maxIter : ℕ) (crit : GgwrCriterionType) (sched : ℕ → Exec n) (ex : Exec n)
    (par par' : Option (DynMat × DynMat)) (b0 : BandwidthWeight) (coords : DynMat) (s θ t₀ t₁ : ℝ) (hs : 0 < s) (ha : b0.mAdaptive = true ∨ s = 1)
    (x : Matrix (Fin n) (Fin k) ℝ) (y : Fin n → ℝ) :
    ggwrAutoRunEx F tol maxIter crit ⟨false, par'⟩ b0 (movedPoints s θ t₀ t₁ coords) x y sched ex =
      ggwrAutoRunEx F tol maxIter crit ⟨false, par⟩ b0 coords x y sched ex := by
  have hW := fun (b : BandwidthWeight) (h : b.mAdaptive = true ∨ s = 1) => weightRows_moved hs θ t₀ t₁ coords coords h n n
  have hC : ∀ b : BandwidthWeight, b.mAdaptive = true ∨ s = 1 → ∀ e, ggwrCriterionEx F tol maxIter crit
      ⟨false, some (movedPoints s θ t₀ t₁ coords, movedPoints s θ t₀ t₁ coords)⟩ x y b e = ggwrCriterionEx F tol maxIter crit ⟨false, some (coords, coords)⟩ x y b e := by
    intro b h e
    unfold ggwrCriterionEx ggwrCriterion
    rw [hW b h]
  unfold ggwrAutoRunEx
  refine bind_moved s θ t₀ t₁ par par' coords ?_
  have hsel : ggwrSelectBandwidthEx F tol maxIter crit ⟨false, some (movedPoints s θ t₀ t₁ coords, movedPoints s θ t₀ t₁ coords)⟩ b0 x y sched =
      ggwrSelectBandwidthEx F tol maxIter crit ⟨false, some (coords, coords)⟩ b0 x y sched := by
    unfold ggwrSelectBandwidthEx
    rw [upper_moved θ t₀ t₁ coords ha n]
    cases (if b0.mAdaptive = true then Res.ok (n : ℝ) else (CRSDistance.mk false (some (coords, coords))).maxDistance) with
    | throw _ => rfl
    | ub => rfl
    | nonfinite => rfl
    | ok u =>
    simp only [Res.bind]
    have ho := optimize_same (b := b0) (l := if b0.mAdaptive = true then 20 else 0) (u := u) (m := []) (P := fun b => b.mAdaptive = true ∨ s = 1)
      (o := fun j b => (true, ggwrScoreEx F tol maxIter crit ⟨false, some (coords, coords)⟩ x y b (sched j)))
      (o' := fun j b => (true, ggwrScoreEx F tol maxIter crit ⟨false, some (movedPoints s θ t₀ t₁ coords, movedPoints s θ t₀ t₁ coords)⟩ x y b (sched j)))
      (fun j w hw => by simp only [ggwrScoreEx, hC w hw]) fun e _ => ha
    rw [ho]
    have hC' := fun t => hC { b0 with mBandwidth := t } ha
    simp only [hC']
  rw [hsel]
  cases hr : ggwrSelectBandwidthEx F tol maxIter crit ⟨false, some (coords, coords)⟩ b0 x y sched with
  | ok r =>
    simp only [Res.bind]
    cases hb : r.out with
    | ok b =>
      have hab : b.mAdaptive = true ∨ s = 1 := by
        unfold ggwrSelectBandwidthEx at hr
        obtain ⟨u, -, hr⟩ := Res.bind_eq_ok'.1 hr
        generalize (if b0.mAdaptive = true then (20 : ℝ) else 0) = l at hr
        dsimp only at hr
        split at hr
        · rw [← Res.ok.inj hr] at hb
          exact out_adaptive ha hb
        · cases hr
      simp only [hW b hab]
    | _ => rfl
  | _ => rfl

theorem gwrSelect_moved (c : Crit) {b0 : BandwidthWeight} (coords : DynMat) (s θ t₀ t₁ : ℝ) (hs : 0 < s) (ha : b0.mAdaptive = true ∨ s = 1)
    (x : Matrix (Fin n) (Fin k) ℝ) (y : Fin n → ℝ) :
    gwrSelectBandwidth c ⟨false, some (movedPoints s θ t₀ t₁ coords, movedPoints s θ t₀ t₁ coords)⟩ b0 none none x y =
      gwrSelectBandwidth c ⟨false, some (coords, coords)⟩ b0 none none x y := by
  have hW := fun (b : BandwidthWeight) (h : b.mAdaptive = true ∨ s = 1) => weightRows_moved hs θ t₀ t₁ coords coords h n n
  unfold gwrSelectBandwidth
  dsimp only
  rw [upper_moved θ t₀ t₁ coords ha n]
  cases (if b0.mAdaptive = true then Res.ok (n : ℝ) else (CRSDistance.mk false (some (coords, coords))).maxDistance) with
  | throw _ => rfl
  | ub => rfl
  | nonfinite => rfl
  | ok u =>
  simp only [Res.bind]
  congr 1
  exact optimize_same (P := fun b => b.mAdaptive = true ∨ s = 1) (fun j w hw => by simp only [gwrCriterion, hW w hw]) fun e _ => ha

/-- **C147 (selection, robust regression).** The same for both kinds of robust fit and both criteria. -/
theorem C147_robust_selection (c : Crit) (filtered : Bool) (sched : (Fin n → ℝ) → Exec n) (par par' : Option (DynMat × DynMat))
    (b0 : BandwidthWeight) (coords : DynMat) (s θ t₀ t₁ : ℝ) (hs : 0 < s) (ha : b0.mAdaptive = true ∨ s = 1)
    (x : Matrix (Fin n) (Fin k) ℝ) (y : Fin n → ℝ) (sS : Bool) :
    robustAutoRun c filtered sched ⟨false, par'⟩ b0 (movedPoints s θ t₀ t₁ coords) x y sS = robustAutoRun c filtered sched ⟨false, par⟩ b0 coords x y sS := by
  have hW := fun (b : BandwidthWeight) (h : b.mAdaptive = true ∨ s = 1) => weightRows_moved hs θ t₀ t₁ coords coords h n n
  unfold robustAutoRun
  refine bind_moved s θ t₀ t₁ par par' coords ?_
  rw [gwrSelect_moved c coords s θ t₀ t₁ hs ha x y]
  cases hr : gwrSelectBandwidth c ⟨false, some (coords, coords)⟩ b0 none none x y with
  | ok r =>
    simp only [Res.bind]
    cases hb : r.out with
    | ok b =>
      have hab : b.mAdaptive = true ∨ s = 1 := by
        unfold gwrSelectBandwidth at hr
        obtain ⟨u, -, hr⟩ := Res.bind_eq_ok'.1 hr
        rw [← Res.ok.inj hr] at hb
        exact out_adaptive ha hb
      simp only [robustFinish, hW b hab]
    | _ => rfl
  | _ => rfl

/-- **C147 (selection, basic regression).** The same for basic regression, with the usual range of bandwidths. -/
theorem C147_basic_selection (c : Crit) (par par' : Option (DynMat × DynMat)) (b0 : BandwidthWeight) (coords : DynMat) (s θ t₀ t₁ : ℝ) (hs : 0 < s)
    (ha : b0.mAdaptive = true ∨ s = 1) (x : Matrix (Fin n) (Fin k) ℝ) (y : Fin n → ℝ) (sS sC : Bool) :
    gwrAutoFit c ⟨false, par'⟩ b0 none none (movedPoints s θ t₀ t₁ coords) x y sS sC = gwrAutoFit c ⟨false, par⟩ b0 none none coords x y sS sC := by
  have hW := fun (b : BandwidthWeight) (h : b.mAdaptive = true ∨ s = 1) => weightRows_moved hs θ t₀ t₁ coords coords h n n
  unfold gwrAutoFit
  refine bind_moved s θ t₀ t₁ par par' coords ?_
  rw [gwrSelect_moved c coords s θ t₀ t₁ hs ha x y]
  cases hr : gwrSelectBandwidth c ⟨false, some (coords, coords)⟩ b0 none none x y with
  | ok r =>
    simp only [Res.bind]
    cases hb : r.out with
    | ok b =>
      have hab : b.mAdaptive = true ∨ s = 1 := by
        unfold gwrSelectBandwidth at hr
        obtain ⟨u, -, hr⟩ := Res.bind_eq_ok'.1 hr
        rw [← Res.ok.inj hr] at hb
        exact out_adaptive ha hb
      simp only [hW b hab]
    | _ => rfl
  | _ => rfl

/-- Three points, the map enlarged, turned and shifted, a number of neighbours selected. -/
example (sv : Matrix (Fin 3) (Fin 2) ℝ → ℝ × ℝ) := C147_ridge_selection sv ⟨1, false, 30⟩ (fun _ => .serial) .serial none none ⟨2, true, .Bisquare⟩ (lineCoords 2)
  1000 1 5 (-7) (by norm_num) (.inl rfl) exX ![0, 1, 4]
/-- The map only turned and shifted, a distance selected. -/
example := C147_generalised_selection .Poisson 0 20 .CV (fun _ => moreThreads 3) (moreThreads 3) none none ⟨0, false, .Gaussian⟩ (lineCoords 2)
  1 1 5 (-7) one_pos (.inr rfl) (ones 3) ![0, 1, 4]
example := C147_robust_selection .CV true (fun _ => .serial) none none ⟨2, true, .Bisquare⟩ (lineCoords 2) 1000 1 5 (-7) (by norm_num) (.inl rfl) exX ![0, 1, 4] true
example := C147_basic_selection .CV none none ⟨2, true, .Bisquare⟩ (lineCoords 2) 1000 1 5 (-7) (by norm_num) (.inl rfl) exX ![0, 1, 4] true true

end Verif.Props

import Verif.Props.GWRRun
import Verif.Props.Formulas
import Verif.Props.Mpi
import Verif.Spec.GWRDefinition

/-!
# C98: the run computes geographically weighted regression; C26 with explicit formulas

From coordinates, covariates and responses to coefficients in one statement, without any function of the model.
-/

namespace Verif.Props
open Verif Verif.Model Verif.Spec Matrix Classical

variable {n k m : ℕ}

/-- Without stop requests no loop ends early. -/
theorem serialFor_nostop {ι ρ σ : Type*} {g : ι → Res ρ} {upd : ι → ρ → σ → σ} :
    ∀ (is : List ι) (p : ℕ) (s : σ) {s' : σ} {t : Bool}, serialFor g upd NoStop is p s = .ok (s', t) → t = false
  | [], _, _, _, _, h => (congrArg Prod.snd (Res.ok.inj h)).symm
  | i :: is, p, s, _, _, h => by
    unfold serialFor at h
    simp only [Bool.false_eq_true, if_false] at h
    rw [Res.bind_eq_ok'] at h
    obtain ⟨r, -, h⟩ := h
    exact serialFor_nostop is _ _ h

theorem euclid_eq_plane (p q : ℕ → ℝ) : euclid p q = plane p q := by
  unfold euclid plane; rw [sq, sq]

/-- Weights of a planar run with a fixed positive bandwidth. -/
theorem weights_fixed {l c : DynMat} {kernel : KernelType} {bw : ℝ} (hb : 0 < bw) {W : Fin m → Fin n → ℝ} :
    weightRows ⟨false, some (l, c)⟩ ⟨bw, false, kernel⟩ n m = .ok W ↔
      ∀ i : Fin m, i.val < l.nRows ∧ c.nRows = n ∧ W i = fun j : Fin n => kernelFormula kernel bw (plane (l.val i) (c.val j)) := by
  rw [weightRows_eq_ok]
  refine forall_congr' fun i => and_congr_right fun _ => and_congr_right fun _ => ?_
  constructor
  · rintro ⟨dist, hd, hw⟩
    rw [C97_fixed_kernel_formula _ _ hb] at hw
    rw [← Res.ok.inj hw]
    funext j
    have : euclid (l.val i) (c.val j) = dist j := Res.ok.inj (hd j)
    rw [← this, euclid_eq_plane]
  · intro h
    refine ⟨fun j => plane (l.val i) (c.val j), fun j => ?_, ?_⟩
    · simp only [crsCalc, Bool.false_eq_true, if_false]; rw [euclid_eq_plane]
    · rw [C97_fixed_kernel_formula _ _ hb, h]

/-- Weights of a planar run with an adaptive bandwidth. -/
theorem weights_adaptive {l c : DynMat} {kernel : KernelType} {q : ℕ} (h1 : 1 ≤ q) (h2 : q < n) (h3 : q < 2147483648)
    {W : Fin m → Fin n → ℝ} (hr : ∀ (i : Fin m) (r : ℝ), IsKthSmallest (fun j : Fin n => plane (l.val i) (c.val j)) q r → 0 < r)
    (h : weightRows ⟨false, some (l, c)⟩ ⟨q, true, kernel⟩ n m = .ok W) (i : Fin m) :
      ∃ r, IsKthSmallest (fun j : Fin n => plane (l.val i) (c.val j)) q r ∧
        W i = fun j : Fin n => kernelFormula kernel r (plane (l.val i) (c.val j)) := by
  obtain ⟨-, -, dist, hd, hw⟩ := weightRows_eq_ok.1 h i
  have e : dist = fun j : Fin n => plane (l.val i) (c.val j) := by
    funext j
    have : euclid (l.val i) (c.val j) = dist j := Res.ok.inj (hd j)
    rw [← this, euclid_eq_plane]
  subst e
  have hk := sorted_get_isKth (fun j : Fin n => plane (l.val i) (c.val j)) h1 h2.le
  refine ⟨_, hk, ?_⟩
  rw [C97_adaptive_kernel_formula kernel _ q _ h1 h2 h3 hk (hr i _ hk)] at hw
  exact (Res.ok.inj hw).symm

/-- **C98 (fit, fixed bandwidth).** For any planar coordinates, covariates, responses, kernel and positive bandwidth: if a fit
returns without stop request, its coefficients are those of geographically weighted regression. -/
theorem C98_fit_is_gwr (p : Option (DynMat × DynMat)) (kernel : KernelType) (bw : ℝ) (hb : 0 < bw) (coords : DynMat)
    (x : Matrix (Fin n) (Fin k) ℝ) (y : Fin n → ℝ) (sS sC : Bool) (stop : ℕ → Bool) (a : FitAcc n k)
    (h : gwrFit ⟨false, p⟩ ⟨bw, false, kernel⟩ coords x y sS sC stop = .ok (a, false)) :
    IsGWRFixed kernel bw (fun i => coords.val i) (fun l => coords.val l) x y a.betas := by
  unfold gwrFit at h
  rw [Res.bind_eq_ok'] at h
  obtain ⟨d', hd, h⟩ := h
  rw [Res.bind_eq_ok'] at h
  obtain ⟨W, hW, h⟩ := h
  obtain ⟨-, -, rfl⟩ := bindLocations_eq_ok.1 hd
  intro i
  have := C21_fit_is_weighted_least_squares x y W sS sC stop a h i
  rwa [((weights_fixed hb).1 hW i).2.2] at this

/-- **C98 (fit, adaptive bandwidth).** The same with a bandwidth of `q` neighbours, if no `q` observations coincide with a
regression point. -/
theorem C98_adaptive_fit_is_gwr (p : Option (DynMat × DynMat)) (kernel : KernelType) (q : ℕ) (h1 : 1 ≤ q) (h2 : q < n)
    (h3 : q < 2147483648) (coords : DynMat) (x : Matrix (Fin n) (Fin k) ℝ) (y : Fin n → ℝ) (sS sC : Bool) (stop : ℕ → Bool)
    (hr : ∀ (i : Fin n) (r : ℝ), IsKthSmallest (fun l : Fin n => plane (coords.val i) (coords.val l)) q r → 0 < r)
    (a : FitAcc n k) (h : gwrFit ⟨false, p⟩ ⟨q, true, kernel⟩ coords x y sS sC stop = .ok (a, false)) :
    IsGWRAdaptive kernel q (fun i => coords.val i) (fun l => coords.val l) x y a.betas := by
  unfold gwrFit at h
  rw [Res.bind_eq_ok'] at h
  obtain ⟨d', hd, h⟩ := h
  rw [Res.bind_eq_ok'] at h
  obtain ⟨W, hW, h⟩ := h
  obtain ⟨-, -, rfl⟩ := bindLocations_eq_ok.1 hd
  intro i
  have := C21_fit_is_weighted_least_squares x y W sS sC stop a h i
  obtain ⟨r, hk, e⟩ := weights_adaptive h1 h2 h3 hr hW i
  rw [e] at this
  exact ⟨r, hk, this⟩

/-- **C98 (prediction, fixed bandwidth).** Coefficients predicted at given locations are those of the regression there. -/
theorem C98_prediction_is_gwr (p : Option (DynMat × DynMat)) (kernel : KernelType) (bw : ℝ) (hb : 0 < bw)
    (locations coords : DynMat) (x : Matrix (Fin n) (Fin k) ℝ) (y : Fin n → ℝ) (stop : ℕ → Bool) (B : Matrix (Fin m) (Fin k) ℝ)
    (h : gwrPredict ⟨false, p⟩ ⟨bw, false, kernel⟩ locations coords m x y stop = .ok (B, false)) :
    IsGWRFixed kernel bw (fun i => locations.val i) (fun l => coords.val l) x y B := by
  unfold gwrPredict at h
  rw [Res.bind_eq_ok'] at h
  obtain ⟨d', hd, h⟩ := h
  rw [Res.bind_eq_ok'] at h
  obtain ⟨W, hW, h⟩ := h
  obtain ⟨-, -, rfl⟩ := bindLocations_eq_ok.1 hd
  intro i
  have := C21_prediction_is_weighted_least_squares x y W stop B h i
  rwa [((weights_fixed hb).1 hW i).2.2] at this

/-- **C98 (prediction, adaptive bandwidth).** -/
theorem C98_adaptive_prediction_is_gwr (p : Option (DynMat × DynMat)) (kernel : KernelType) (q : ℕ) (h1 : 1 ≤ q) (h2 : q < n)
    (h3 : q < 2147483648) (locations coords : DynMat) (x : Matrix (Fin n) (Fin k) ℝ) (y : Fin n → ℝ) (stop : ℕ → Bool)
    (hr : ∀ (i : Fin m) (r : ℝ), IsKthSmallest (fun l : Fin n => plane (locations.val i) (coords.val l)) q r → 0 < r)
    (B : Matrix (Fin m) (Fin k) ℝ)
    (h : gwrPredict ⟨false, p⟩ ⟨q, true, kernel⟩ locations coords m x y stop = .ok (B, false)) :
    IsGWRAdaptive kernel q (fun i => locations.val i) (fun l => coords.val l) x y B := by
  unfold gwrPredict at h
  rw [Res.bind_eq_ok'] at h
  obtain ⟨d', hd, h⟩ := h
  rw [Res.bind_eq_ok'] at h
  obtain ⟨W, hW, h⟩ := h
  obtain ⟨-, -, rfl⟩ := bindLocations_eq_ok.1 hd
  intro i
  have := C21_prediction_is_weighted_least_squares x y W stop B h i
  obtain ⟨r, hk, e⟩ := weights_adaptive h1 h2 h3 hr hW i
  rw [e] at this
  exact ⟨r, hk, this⟩

/-- **C98 (automatic bandwidth).** With automatic bandwidth selection the reported coefficients are those of the regression
with the reported bandwidth. -/
theorem C98_auto_fit_is_gwr (c : Crit) (p : Option (DynMat × DynMat)) (b0 b : BandwidthWeight) (lower upper : Option ℝ)
    (coords : DynMat) (x : Matrix (Fin n) (Fin k) ℝ) (y : Fin n → ℝ) (sS sC : Bool) (a : FitAcc n k)
    (hf : b.mAdaptive = false) (hb : 0 < b.mBandwidth)
    (h : gwrAutoFit c ⟨false, p⟩ b0 lower upper coords x y sS sC = .ok (b, a)) :
    IsGWRFixed b.mKernel b.mBandwidth (fun i => coords.val i) (fun l => coords.val l) x y a.betas := by
  unfold gwrAutoFit at h
  simp only [Res.bind_eq_ok'] at h
  obtain ⟨d', hd, r, -, b', -, W, hW, q, hq, h⟩ := h
  have h := Res.ok.inj h
  obtain ⟨rfl, rfl⟩ : b' = b ∧ q.1 = a := ⟨congrArg Prod.fst h, congrArg Prod.snd h⟩
  obtain ⟨q1, q2⟩ := q
  obtain ⟨-, -, rfl⟩ := bindLocations_eq_ok.1 hd
  obtain ⟨bw, ad, kn⟩ := b'
  simp only at hf hb
  subst hf
  have hq2 : q2 = false := by
    exact serialFor_nostop _ _ _ hq
  subst hq2
  intro i
  have := C21_fit_is_weighted_least_squares x y W sS sC _ _ hq i
  rwa [((weights_fixed hb).1 hW i).2.2] at this

theorem kernelFormula_nonneg (kernel : KernelType) {bw : ℝ} (hb : 0 < bw) : ∀ d, 0 ≤ kernelFormula kernel bw d := by
  intro d
  cases kernel <;> simp only [kernelFormula]
  · positivity
  · positivity
  · split_ifs <;> positivity
  · split_ifs with hd
    · have : d / bw < 1 := (div_lt_one hb).2 hd
      have h3 : (d / bw) ^ 3 ≤ 1 := by
        by_cases h0 : 0 ≤ d / bw
        · exact pow_le_one₀ h0 this.le
        · push Not at h0
          have : (d / bw) ^ 3 = (d / bw) ^ 2 * (d / bw) := by ring
          nlinarith [sq_nonneg (d / bw)]
      exact pow_nonneg (by linarith) 3
    · exact le_rfl
  · split_ifs <;> norm_num

/-- **C98 (when it succeeds).** A planar fit with a positive fixed bandwidth returns coefficients exactly if the coordinates
have two columns and one row per observation, and at every observation the observations of positive weight determine the
coefficients. -/
theorem C98_fit_succeeds_iff (p : Option (DynMat × DynMat)) (kernel : KernelType) (bw : ℝ) (hb : 0 < bw) (coords : DynMat)
    (hn : 0 < n) (x : Matrix (Fin n) (Fin k) ℝ) (y : Fin n → ℝ) (sS sC : Bool) :
    (∃ a, gwrFit ⟨false, p⟩ ⟨bw, false, kernel⟩ coords x y sS sC NoStop = .ok (a, false)) ↔
      coords.nCols = 2 ∧ coords.nRows = n ∧
        ∀ i : Fin n, Determined x fun l => kernelFormula kernel bw (plane (coords.val i) (coords.val l)) := by
  have hnn := kernelFormula_nonneg kernel hb
  have key := C21_fit_succeeds_iff x y (fun i l => kernelFormula kernel bw (plane (coords.val i) (coords.val l)))
    (fun _ _ => hnn _) sS sC
  constructor
  · rintro ⟨a, h⟩
    unfold gwrFit at h
    rw [Res.bind_eq_ok'] at h
    obtain ⟨d', hd, h⟩ := h
    rw [Res.bind_eq_ok'] at h
    obtain ⟨W, hW, h⟩ := h
    obtain ⟨hc, -, rfl⟩ := bindLocations_eq_ok.1 hd
    have hW' := (weights_fixed hb).1 hW
    refine ⟨hc, (hW' ⟨0, hn⟩).2.1, key.1.1 ⟨a, ?_⟩⟩
    have : W = fun i l : Fin n => kernelFormula kernel bw (plane (coords.val i) (coords.val l)) := funext fun i => (hW' i).2.2
    rw [← this]; exact h
  · rintro ⟨hc, hr, hdet⟩
    obtain ⟨a, ha⟩ := key.1.2 hdet
    refine ⟨a, ?_⟩
    unfold gwrFit
    rw [bindLocations_eq_ok.2 ⟨hc, hc, rfl⟩]
    simp only [Res.bind]
    rw [(weights_fixed hb).2 fun i => ⟨by rw [hr]; exact i.isLt, hr, rfl⟩]
    exact ha

/-- Three points on a line, intercept and one covariate, every kernel of unbounded support. -/
example : ∃ a, gwrFit ⟨false, none⟩ ⟨1, false, .Gaussian⟩ (lineCoords 2) exX ![1, 3, 2] true true NoStop = .ok (a, false) ∧
    IsGWRFixed .Gaussian 1 (fun i : Fin 3 => (lineCoords 2).val i) (fun l : Fin 3 => (lineCoords 2).val l) exX ![1, 3, 2] a.betas := by
  obtain ⟨a, ha⟩ := (C98_fit_succeeds_iff none .Gaussian 1 one_pos (lineCoords 2) (by norm_num) exX ![1, 3, 2] true true).2
    ⟨rfl, rfl, fun i => exX_determined _ fun l => by simp only [kernelFormula]; positivity⟩
  exact ⟨a, ha, C98_fit_is_gwr _ _ _ one_pos _ _ _ _ _ _ _ ha⟩

/-- On the line the second nearest observation, counting the point itself, is at positive distance. -/
theorem line_second (i : Fin 3) (r : ℝ)
    (h : IsKthSmallest (fun l : Fin 3 => plane ((lineCoords 2).val i) ((lineCoords 2).val l)) 2 r) : 0 < r := by
  obtain ⟨⟨j, hj⟩, -, h2⟩ := h
  have e : ∀ l : Fin 3, plane ((lineCoords 2).val i) ((lineCoords 2).val l) = 2 * |((l : ℕ) : ℝ) - (i : ℕ)| := fun l => by
    rw [← euclid_eq_plane, line_dist]; norm_num
  simp only [e] at hj h2
  by_contra hr
  have : {l : Fin 3 | 2 * |((l : ℕ) : ℝ) - (i : ℕ)| ≤ r} ⊆ {i} := by
    intro l hl
    simp only [Set.mem_setOf_eq] at hl
    have h0 : |((l : ℕ) : ℝ) - (i : ℕ)| = 0 := le_antisymm (by linarith) (abs_nonneg _)
    have : ((l : ℕ) : ℝ) = (i : ℕ) := sub_eq_zero.1 (abs_eq_zero.1 h0)
    exact Fin.ext (by exact_mod_cast this)
  have := Set.ncard_le_ncard this (Set.finite_singleton i)
  rw [Set.ncard_singleton] at this
  omega

example : ∃ a, gwrFit ⟨false, none⟩ ⟨2, true, .Gaussian⟩ (lineCoords 2) exX ![1, 3, 2] true true NoStop = .ok (a, false) ∧
    IsGWRAdaptive .Gaussian 2 (fun i : Fin 3 => (lineCoords 2).val i) (fun l : Fin 3 => (lineCoords 2).val l) exX ![1, 3, 2] a.betas := by
  have hk : ∀ i : Fin 3, ∃ r, IsKthSmallest (fun l : Fin 3 => plane ((lineCoords 2).val i) ((lineCoords 2).val l)) 2 r :=
    fun i => ⟨_, sorted_get_isKth _ (by norm_num) (by norm_num)⟩
  choose r hr using hk
  have hW : weightRows ⟨false, some (lineCoords 2, lineCoords 2)⟩ ⟨(2 : ℕ), true, .Gaussian⟩ 3 3 =
      .ok (fun i l : Fin 3 => kernelFormula .Gaussian (r i) (plane ((lineCoords 2).val i) ((lineCoords 2).val l))) := by
    refine weightRows_eq_ok.2 fun i => ⟨i.isLt, rfl, fun l => plane ((lineCoords 2).val i) ((lineCoords 2).val l), fun j => ?_, ?_⟩
    · simp only [crsCalc, Bool.false_eq_true, if_false]; rw [euclid_eq_plane]
    · exact C97_adaptive_kernel_formula .Gaussian _ 2 (r i) (by norm_num) (by norm_num) (by norm_num) (hr i) (line_second i _ (hr i))
  obtain ⟨a, ha⟩ := (C21_fit_succeeds_iff exX ![1, 3, 2] _
    (fun i l => by simp only [kernelFormula]; positivity) true true).1.2
      (fun i => exX_determined (fun l => kernelFormula .Gaussian (r i) (plane ((lineCoords 2).val i) ((lineCoords 2).val l)))
        fun l => by simp only [kernelFormula]; positivity)
  have hf : gwrFit ⟨false, none⟩ ⟨(2 : ℕ), true, .Gaussian⟩ (lineCoords 2) exX ![1, 3, 2] true true NoStop = .ok (a, false) := by
    unfold gwrFit
    rw [bindLocations_eq_ok.2 ⟨rfl, rfl, rfl⟩]
    simp only [Res.bind]
    rw [hW]
    exact ha
  exact ⟨a, by simpa using hf,
    C98_adaptive_fit_is_gwr none .Gaussian 2 (by norm_num) (by norm_num) (by norm_num) _ _ _ _ _ _ line_second _ hf⟩

/-! ## C96: the default bounds -/

/-- **C96 (default bounds).** If no bounds are set, the search is the one from 20 to the number of observations for an adaptive
bandwidth, and from 0 to the largest distance between two observations for a fixed one. -/
theorem C96_default_bounds (c : Crit) (kernel : KernelType) (w : ℝ) (coords : DynMat) (hn : 0 < n) (hr : coords.nRows = n)
    (hmax : ∀ i j : Fin n, plane (coords.val i) (coords.val j) ≤ dblMax) (x : Matrix (Fin n) (Fin k) ℝ) (y : Fin n → ℝ) :
    gwrSelectBandwidth c ⟨false, some (coords, coords)⟩ ⟨w, true, kernel⟩ none none x y =
      gwrSelectBandwidth c ⟨false, some (coords, coords)⟩ ⟨w, true, kernel⟩ (some 20) (some n) x y ∧
    ∃ M, (∀ i j : Fin n, plane (coords.val i) (coords.val j) ≤ M) ∧ (∃ i j : Fin n, plane (coords.val i) (coords.val j) = M) ∧
      gwrSelectBandwidth c ⟨false, some (coords, coords)⟩ ⟨w, false, kernel⟩ none none x y =
        gwrSelectBandwidth c ⟨false, some (coords, coords)⟩ ⟨w, false, kernel⟩ (some 0) (some M) x y := by
  refine ⟨rfl, ?_⟩
  obtain ⟨M, m0, hM, -, h1, ⟨i, l, hl, hml⟩, -⟩ := C08_max_min_sharp coords coords (by omega) (by omega)
    (fun i hi j hj => by rw [euclid_eq_plane]; exact hmax ⟨i, hr ▸ hi⟩ ⟨j, hr ▸ hj⟩)
  have row : ∀ i : ℕ, i < n → (⟨false, some (coords, coords)⟩ : CRSDistance).distance i =
      .ok ((List.range n).map fun j => plane (coords.val i) (coords.val j)) := fun i hi => by
    simp only [CRSDistance.distance]
    rw [if_pos (by omega), crsDistRow_planar, hr]
    simp only [euclid_eq_plane]
  refine ⟨M, fun i j => ?_, ?_, ?_⟩
  · exact (h1 i _ (row i i.isLt) _ (List.mem_map.2 ⟨j, by simp, rfl⟩)).2
  · have hi : i < n := by
      by_contra hi
      simp only [CRSDistance.distance] at hl
      rw [if_neg (by omega)] at hl
      cases hl
    rw [row i hi] at hl
    rw [← Res.ok.inj hl, List.mem_map] at hml
    obtain ⟨j, hj, e⟩ := hml
    exact ⟨⟨i, hi⟩, ⟨j, by simpa using hj⟩, e⟩
  · unfold gwrSelectBandwidth
    simp only [Bool.false_eq_true, if_false, hM]
    rfl

/-! ## C26 -/

/-- **C26 (formulas).** The reported diagnostics of a fit are the textbook functions of the residual sum of squares and of the
traces of the hat matrix. -/
theorem C26_formulas (x : Matrix (Fin n) (Fin k) ℝ) (y : Fin n → ℝ) (W : Fin n → Fin n → ℝ) (sC : Bool) (stop : ℕ → Bool)
    (a : FitAcc n k) (h : fitCoreSerial x y W 0 n true sC stop = .ok (a, false)) :
    let d := calcDiagnostic x y a.betas a.shat
    let S : Matrix (Fin n) (Fin n) ℝ := Matrix.of fun i l => a.s i.val l
    d.RSS = residualSS x y a.betas ∧
    d.ENP = 2 * S.trace - (Sᵀ * S).trace ∧ d.EDF = n - 2 * S.trace + (Sᵀ * S).trace ∧
    (0 < residualSS x y a.betas → d.AIC = .ok (aicFormula n (residualSS x y a.betas) S.trace)) ∧
    (0 < residualSS x y a.betas → S.trace ≠ n - 2 → d.AICc = .ok (aiccFormula n (residualSS x y a.betas) S.trace)) ∧
    (residualSS x y a.betas = 0 → d.AIC = .nonfinite ∧ d.AICc = .nonfinite) ∧
    (S.trace = n - 2 → d.AICc = .nonfinite) := by
  intro d S
  obtain ⟨t1, t2⟩ := C25_traces x y W sC stop a h
  have e1 : a.shat 0 = S.trace := t1
  have e2 : a.shat 1 = (Sᵀ * S).trace := t2
  have hrss : rss x y a.betas = residualSS x y a.betas := (C26_diagnostics x y a.betas a.shat).2.2.1
  have h0 : 0 ≤ residualSS x y a.betas := Finset.sum_nonneg fun i _ => sq_nonneg _
  have hn : 0 < residualSS x y a.betas → (0 : ℝ) < n := fun hp => by
    rcases Nat.eq_zero_or_pos n with hz | hz
    · subst hz; simp [residualSS] at hp
    · exact_mod_cast hz
  refine ⟨hrss, by simp only [d, calcDiagnostic, e1, e2], by simp only [d, calcDiagnostic, e1, e2], fun hp => ?_,
    fun hp ht => ?_, fun hz => ?_, fun ht => ?_⟩
  · have := hn hp
    simp only [d, calcDiagnostic, e1, hrss, fdiv, flog, this.ne', if_false, Res.bind, not_le.2 (div_pos hp this), aicFormula]
  · have := hn hp
    have hd : (n : ℝ) - 2 - S.trace ≠ 0 := fun e => ht (by linarith)
    simp only [d, calcDiagnostic, e1, hrss, fdiv, flog, this.ne', if_false, Res.bind, not_le.2 (div_pos hp this), hd, aiccFormula]
  · constructor <;> simp only [d, calcDiagnostic, hrss, hz, fdiv, flog, zero_div] <;> split_ifs <;> simp_all [Res.bind]
  · have hd : (n : ℝ) - 2 - S.trace = 0 := by linarith
    simp only [d, calcDiagnostic, e1, fdiv, flog, hd, if_true]
    split_ifs <;> simp only [Res.bind]
    split_ifs <;> simp only [Res.bind]

/-- **C26 (standard errors).** The reported standard error is the square root of the residual variance times the squared
length of the row of the matrix that maps responses to that coefficient. -/
theorem C26_standard_errors (x : Matrix (Fin n) (Fin k) ℝ) (y : Fin n → ℝ) (W : Fin n → Fin n → ℝ) (stop : ℕ → Bool)
    (a : FitAcc n k) (h : fitCoreSerial x y W 0 n true true stop = .ok (a, false)) (i : Fin n) (j : Fin k) :
    let S : Matrix (Fin n) (Fin n) ℝ := Matrix.of fun i l => a.s i.val l
    let edf := n - 2 * S.trace + (Sᵀ * S).trace
    (0 < edf → betasSE x y a i j = .ok √(residualSS x y a.betas / edf * ∑ l, a.c i.val j l ^ 2)) ∧
    (∀ z : Fin n → ℝ, ∀ a', fitCoreSerial x z W 0 n true true stop = .ok (a', false) →
      a'.betas i j = ∑ l, a.c i.val j l * z l) := by
  intro S edf
  obtain ⟨t1, t2⟩ := C25_traces x y W true stop a h
  have hrss : rss x y a.betas = residualSS x y a.betas := (C26_diagnostics x y a.betas a.shat).2.2.1
  have h0 : 0 ≤ residualSS x y a.betas := Finset.sum_nonneg fun i _ => sq_nonneg _
  constructor
  · intro he
    have hed : (n : ℝ) - 2 * a.shat 0 + a.shat 1 = edf := by rw [t1, t2]; rfl
    unfold betasSE
    rw [hed, hrss, fdiv, if_neg he.ne', (C25_se_terms x y W true stop a h i j).2]
    simp only [Res.bind, fsqrt]
    rw [if_neg]
    exact not_lt.2 (mul_nonneg (div_nonneg h0 he.le) (Finset.sum_nonneg fun l _ => sq_nonneg _))
  · intro z a' h'
    have c1 := (fitCoreSerial_ok h).2.c rfl i (Nat.zero_le _) i.isLt
    have c2 := (fitCoreSerial_ok h').2.c rfl i (Nat.zero_le _) i.isLt
    rw [(C25_se_terms x z W true stop a' h' i j).1]
    simp only [Nat.sub_zero] at c1 c2
    rw [c1, c2]; rfl

/-- **C26 (criterion).** The value that the bandwidth search minimises under the AIC criterion is the AICc that a fit with that
bandwidth reports, whenever that is a double. -/
theorem C26_criterion_aicc (x : Matrix (Fin n) (Fin k) ℝ) (y : Fin n → ℝ) (W : Fin n → Fin n → ℝ) (sS sC : Bool) (a : FitAcc n k)
    (h : fitCoreSerial x y W 0 n sS sC NoStop = .ok (a, false)) (v : ℝ)
    (hv : (calcDiagnostic x y a.betas a.shat).AICc = .ok v) (hfin : |v| ≤ dblMax) :
    criterionAIC x y false (fitCoreSHatSerial x y W 0 n NoStop) = v := by
  have hpd := (fitCoreSerial_ok h).1
  have hc := (fitCoreSerial_ok h).2
  obtain ⟨b, e, hb, -⟩ := shatLoop_ok (x := x) (y := y) (W := W) 0 n (fun i ha hb => hpd i ha hb)
  have hbe : b = a.betas := by
    ext i j; rw [hb i (Nat.zero_le _) i.isLt, hc.betas i (Nat.zero_le _) i.isLt]
  rw [e, hbe, ← hc.shat]
  have hv' : aicc x y a.betas (a.shat 0) = .ok v := hv
  simp only [criterionAIC, hv', and_self, if_true, finiteOrMax, hfin]

/-- Four observations, intercept only, equal weights: AICc is `4 ln 3 + 4 ln 2π + 20`. -/
theorem ex_aicc : ∃ a, fitCoreSerial (Matrix.of fun _ _ => 1 : Matrix (Fin 4) (Fin 1) ℝ) ![0, 0, 0, 4] (fun _ _ => 1) 0 4 true true NoStop =
      .ok (a, false) ∧
    (calcDiagnostic (Matrix.of fun _ _ => 1 : Matrix (Fin 4) (Fin 1) ℝ) ![0, 0, 0, 4] a.betas a.shat).AICc =
      .ok (4 * Real.log 3 + 4 * Real.log (2 * Real.pi) + 20) := by
  obtain ⟨a, ha⟩ := (C21_fit_succeeds_iff (Matrix.of fun _ _ => 1 : Matrix (Fin 4) (Fin 1) ℝ) ![0, 0, 0, 4] (fun _ _ => 1)
    (fun _ _ => zero_le_one) true true).1.2 (fun i b hb => by
      have := hb 0 one_pos
      simp at this
      funext j; rw [Subsingleton.elim j 0]; simpa using this)
  refine ⟨a, ha, ?_⟩
  have hb : ∀ i, a.betas i 0 = 1 := fun i => by
    have := C21_normal_equations _ _ _ _ _ _ _ ha i 0
    simp [Fin.sum_univ_succ] at this
    linarith
  have hc := (fitCoreSerial_ok ha).2
  have ht : a.shat 0 = 1 := by
    rw [hc.shat, sum_workRange, Finset.sum_apply]
    simp [shatRow, fitAt, Matrix.inv_subsingleton, xtwx, xtw, Matrix.vecMul, dotProduct]
    rw [Matrix.mul_apply]
    norm_num [Fin.sum_univ_succ]
  have hr : rss (Matrix.of fun _ _ => 1 : Matrix (Fin 4) (Fin 1) ℝ) ![0, 0, 0, 4] a.betas = 12 := by
    rw [show rss _ _ _ = _ from (C26_diagnostics (Matrix.of fun _ _ => 1 : Matrix (Fin 4) (Fin 1) ℝ) ![0, 0, 0, 4] a.betas a.shat).2.2.1]
    simp [Fin.sum_univ_succ, hb]
    norm_num
  simp only [calcDiagnostic, hr, ht, fdiv, flog, Res.bind]
  norm_num

/-- So the criterion takes this value there. -/
example : criterionAIC (Matrix.of fun _ _ => 1 : Matrix (Fin 4) (Fin 1) ℝ) ![0, 0, 0, 4] false
    (fitCoreSHatSerial (Matrix.of fun _ _ => 1) ![0, 0, 0, 4] (fun _ _ => 1) 0 4 NoStop) = 4 * Real.log 3 + 4 * Real.log (2 * Real.pi) + 20 := by
  obtain ⟨a, ha, hv⟩ := ex_aicc
  refine C26_criterion_aicc _ _ _ _ _ a ha _ hv ?_
  have h1 : Real.log 3 ≤ 3 - 1 := Real.log_le_sub_one_of_pos (by norm_num)
  have h2 : Real.log (2 * Real.pi) ≤ 2 * Real.pi - 1 := Real.log_le_sub_one_of_pos (by positivity)
  have h3 := Real.pi_le_four
  have h4 : 0 ≤ Real.log 3 := Real.log_nonneg (by norm_num)
  have h5 : 0 ≤ Real.log (2 * Real.pi) := Real.log_nonneg (by linarith [Real.two_le_pi])
  rw [abs_of_nonneg (by linarith)]
  linarith [hundred_lt_dblMax]

end Verif.Props

import Verif.Props.GWRInvariance
import Verif.Props.ReorderingGeneralized
import Verif.Props.ReorderingClasses
import Verif.Props.ResponseRidge
import Verif.Props.RobustRun

/-! # C147: how the map is drawn does not matter for whole runs -/

namespace Verif.Props
open Verif Verif.Model Verif.Spec Matrix Classical

variable {n k m p : ℕ}

/-- The places `at'` and observations `obs'`, with bandwidth `b'`, are the places `at₀` and observations `obs` with bandwidth `b` on another map: all
distances are multiplied by one positive factor, and so is a bandwidth that is a distance; one that is a number of neighbours is the same. -/
structure Redrawn (m n : ℕ) (geo geo' : Bool) (at₀ obs at' obs' : DynMat) (b b' : BandwidthWeight) : Prop where
  places : FitsData at₀ m ∧ FitsData at' m
  observations : FitsData obs n ∧ FitsData obs' n
  some_observation : 0 < m → 0 < n
  kernel : b'.mKernel = b.mKernel
  adaptive : b'.mAdaptive = b.mAdaptive
  distances : ∃ (s : ℝ) (dist dist' : Fin m → Fin n → ℝ), 0 < s ∧ IsMapDistance geo at₀ obs dist ∧ IsMapDistance geo' at' obs' dist' ∧
    (∀ i l, dist' i l = s * dist i l) ∧ UsableRadius b dist ∧ b'.mBandwidth = if b.mAdaptive = true then b.mBandwidth else s * b.mBandwidth

/-- The point `(u, v)` after a rotation by `θ`, an enlargement by `s` and a shift by `(t₀, t₁)`. -/
noncomputable def movedPoint (s θ t₀ t₁ : ℝ) (p : ℕ → ℝ) : ℕ → ℝ := fun c =>
  if c = 0 then s * (Real.cos θ * p 0 - Real.sin θ * p 1) + t₀ else s * (Real.sin θ * p 0 + Real.cos θ * p 1) + t₁

/-- A table of points, each of them moved. -/
noncomputable def movedPoints (s θ t₀ t₁ : ℝ) (c : DynMat) : DynMat := ⟨c.nRows, c.nCols, fun i => movedPoint s θ t₀ t₁ (c.val i)⟩

theorem plane_moved {s : ℝ} (hs : 0 < s) (θ t₀ t₁ : ℝ) (p q : ℕ → ℝ) : plane (movedPoint s θ t₀ t₁ p) (movedPoint s θ t₀ t₁ q) = s * plane p q := by
  have h : (movedPoint s θ t₀ t₁ q 0 - movedPoint s θ t₀ t₁ p 0) ^ 2 + (movedPoint s θ t₀ t₁ q 1 - movedPoint s θ t₀ t₁ p 1) ^ 2 =
      s ^ 2 * ((q 0 - p 0) ^ 2 + (q 1 - p 1) ^ 2) := by
    simp only [movedPoint, if_true, one_ne_zero, if_false]
    have := Real.sin_sq_add_cos_sq θ
    have e : (s * (Real.cos θ * q 0 - Real.sin θ * q 1) + t₀ - (s * (Real.cos θ * p 0 - Real.sin θ * p 1) + t₀)) ^ 2 +
        (s * (Real.sin θ * q 0 + Real.cos θ * q 1) + t₁ - (s * (Real.sin θ * p 0 + Real.cos θ * p 1) + t₁)) ^ 2 =
        (Real.sin θ ^ 2 + Real.cos θ ^ 2) * (s ^ 2 * ((q 0 - p 0) ^ 2 + (q 1 - p 1) ^ 2)) := by ring
    rw [e, this, one_mul]
  unfold plane
  rw [h, Real.sqrt_mul (sq_nonneg s), Real.sqrt_sq hs.le]

/-- **C147 (drawings).** Rotating, enlarging and shifting all planar coordinates, with a fixed bandwidth enlarged too, is drawing the same map again. -/
theorem C147_drawings (s θ t₀ t₁ : ℝ) (hs : 0 < s) (at₀ obs : DynMat) (hat : FitsData at₀ m) (hobs : FitsData obs n) (h0 : 0 < m → 0 < n)
    (b : BandwidthWeight) (hb : UsableRadius (m := m) (n := n) b fun i l => plane (at₀.val i) (obs.val l)) :
    Redrawn m n false false at₀ obs (movedPoints s θ t₀ t₁ at₀) (movedPoints s θ t₀ t₁ obs) b
      ⟨if b.mAdaptive = true then b.mBandwidth else s * b.mBandwidth, b.mAdaptive, b.mKernel⟩ := by
  refine ⟨⟨hat, hat⟩, ⟨hobs, hobs⟩, h0, rfl, rfl, s, _, _, hs, ?_, ?_, fun i l => plane_moved hs θ t₀ t₁ (at₀.val i) (obs.val l), hb, rfl⟩
  · unfold IsMapDistance
    rw [if_neg Bool.false_ne_true]
    exact fun _ _ => rfl
  · unfold IsMapDistance
    rw [if_neg Bool.false_ne_true]
    exact fun _ _ => rfl

theorem Redrawn.weights {geo geo' : Bool} {at₀ obs at' obs' : DynMat} {b b' : BandwidthWeight} (h : Redrawn m n geo geo' at₀ obs at' obs' b b')
    (par par' : Option (DynMat × DynMat)) : ∃ (d d' : CRSDistance) (W : Fin m → Fin n → ℝ), bindLocations ⟨geo, par⟩ at₀ obs = .ok d ∧
      bindLocations ⟨geo', par'⟩ at' obs' = .ok d' ∧ weightRows d b n m = .ok W ∧ weightRows d' b' n m = .ok W := by
  obtain ⟨⟨p1, p2⟩, ⟨o1, o2⟩, h0, hk, ha, s, dist, dist', hs, hd, hd', hdd, hb, hbw⟩ := h
  obtain ⟨W, h1, h2, -⟩ := kernelRows p1.2 o1.2 hd hb h0
  obtain ⟨W', h1', h2', -⟩ := kernelRows p2.2 o2.2 hd' (usableRadius_scale hs hdd ha hbw hb) h0
  obtain rfl := kernelWeight_unique h2' (kernelWeight_scale hs hdd hk ha hbw h2)
  exact ⟨_, _, W', bindLocations_eq_ok.2 ⟨p1.1, o1.1, rfl⟩, bindLocations_eq_ok.2 ⟨p2.1, o2.1, rfl⟩, h1, h1'⟩

/-- **C147 (ridge regression).** Coefficients, diagnostics and outcome are the same on every map, in every mode, at the observations and elsewhere. -/
theorem C147_ridge (sv : Matrix (Fin n) (Fin k) ℝ → ℝ × ℝ) (cfg : LcrCfg) (geo geo' : Bool) (par par' : Option (DynMat × DynMat)) (b b' : BandwidthWeight)
    (x : Matrix (Fin n) (Fin k) ℝ) (y : Fin n → ℝ) :
    (∀ (ex : Exec n) (coords coords' : DynMat), Redrawn n n geo geo' coords coords coords' coords' b b' →
      lcrRunIn sv cfg ex ⟨geo', par'⟩ b' coords' x y = lcrRunIn sv cfg ex ⟨geo, par⟩ b coords x y) ∧
    ∀ (m : ℕ) (places places' coords coords' : DynMat), Redrawn m n geo geo' places coords places' coords' b b' →
      lcrPredictRun sv cfg ⟨geo', par'⟩ b' places' coords' m x y = lcrPredictRun sv cfg ⟨geo, par⟩ b places coords m x y := by
  constructor
  · intro ex coords coords' h
    obtain ⟨d, d', W, h1, h2, h3, h4⟩ := h.weights par par'
    unfold lcrRunIn lcrFinishIn
    rw [h1, h2]
    simp only [Res.bind, h3, h4]
  · intro m places places' coords coords' h
    obtain ⟨d, d', W, h1, h2, h3, h4⟩ := h.weights par par'
    unfold lcrPredictRun
    rw [h1, h2]
    simp only [Res.bind, h3, h4]

/-- **C147 (robust regression).** The same but for the bandwidth that was given. -/
theorem C147_robust (filtered : Bool) (sched : (Fin n → ℝ) → Exec n) (geo geo' : Bool) (par par' : Option (DynMat × DynMat)) (b b' : BandwidthWeight)
    (coords coords' : DynMat) (h : Redrawn n n geo geo' coords coords coords' coords' b b') (x : Matrix (Fin n) (Fin k) ℝ) (y : Fin n → ℝ) (sS : Bool) :
    robustRun filtered sched ⟨geo', par'⟩ b' coords' x y sS =
      (robustRun filtered sched ⟨geo, par⟩ b coords x y sS).bind fun r => .ok { r with weight := b' } := by
  obtain ⟨d, d', W, h1, h2, h3, h4⟩ := h.weights par par'
  unfold robustRun robustFinish
  rw [h1, h2]
  simp only [Res.bind, h3, h4]
  cases robustCali filtered sched x y W sS <;> rfl

/-- **C147 (generalised regression).** Everything a Poisson or binomial regression reports. -/
theorem C147_generalised (F : Family) (tol : ℝ) (maxIter : ℕ) (ex : Exec n) (geo geo' : Bool) (par par' : Option (DynMat × DynMat))
    (b b' : BandwidthWeight) (coords coords' : DynMat) (h : Redrawn n n geo geo' coords coords coords' coords' b b') (x : Matrix (Fin n) (Fin k) ℝ)
    (y : Fin n → ℝ) : ggwrRun F tol maxIter ⟨geo', par'⟩ b' coords' x y ex = ggwrRun F tol maxIter ⟨geo, par⟩ b coords x y ex := by
  obtain ⟨d, d', W, h1, h2, h3, h4⟩ := h.weights par par'
  unfold ggwrRun
  rw [h1, h2]
  simp only [Res.bind, h3, h4]

/-- **C147 (discriminant analysis).** Classes, scores, probabilities, entropies and the correct rate. -/
theorem C147_discriminant {α : Type} [DecidableEq α] (e : GwdaEnv k) (st : GwdaState) (geo geo' : Bool) (par par' : Option (DynMat × DynMat))
    (b b' : BandwidthWeight) (coords coords' : DynMat) (h : Redrawn n n geo geo' coords coords coords' coords' b b') (x : Matrix (Fin n) (Fin k) ℝ)
    (y : Fin n → α) : gwdaFull e st ⟨geo', par'⟩ b' coords' x y = gwdaFull e st ⟨geo, par⟩ b coords x y := by
  obtain ⟨d, d', W, h1, h2, h3, h4⟩ := h.weights par par'
  unfold gwdaFull
  rw [h1, h2]
  simp only [Res.bind, h3, h4]

/-- **C147 (principal components).** -/
theorem C147_components (svd : Matrix (Fin (n + 1)) (Fin p) ℝ → SvdOut p) (geo geo' : Bool) (par par' : Option (DynMat × DynMat))
    (b b' : BandwidthWeight) (coords coords' : DynMat) (h : Redrawn (n + 1) (n + 1) geo geo' coords coords coords' coords' b b')
    (x : Matrix (Fin (n + 1)) (Fin p) ℝ) (K : ℕ) : gwpcaRun svd ⟨geo', par'⟩ b' coords' x K = gwpcaRun svd ⟨geo, par⟩ b coords x K := by
  obtain ⟨d, d', W, h1, h2, h3, h4⟩ := h.weights par par'
  unfold gwpcaRun
  rw [h1, h2]
  simp only [Res.bind, h3, h4]

/-! ### Runs to which the theorems apply -/

theorem drawn_fixed (s θ t₀ t₁ : ℝ) (hs : 0 < s) (coords : DynMat) (h : FitsData coords n) (bw : ℝ) (hb : 0 < bw) (kernel : KernelType) :
    Redrawn n n false false coords coords (movedPoints s θ t₀ t₁ coords) (movedPoints s θ t₀ t₁ coords) ⟨bw, false, kernel⟩ ⟨s * bw, false, kernel⟩ :=
  C147_drawings s θ t₀ t₁ hs coords coords h h id ⟨bw, false, kernel⟩ (usable_fixed hb kernel _)

/-- Ridge regression of three points on a line, in thousandths of the unit, turned by one radian and shifted. -/
example (sv : Matrix (Fin 3) (Fin 2) ℝ → ℝ × ℝ) : ∃ r,
    lcrRunIn sv ⟨1, false, 30⟩ .serial ⟨false, none⟩ ⟨1, false, .Gaussian⟩ (lineCoords 2) exX ![0, 1, 4] = .ok r ∧
    lcrRunIn sv ⟨1, false, 30⟩ .serial ⟨false, none⟩ ⟨1000 * 1, false, .Gaussian⟩ (movedPoints 1000 1 5 (-7) (lineCoords 2)) exX ![0, 1, 4] = .ok r := by
  obtain ⟨r, h⟩ := ridge_line_run sv zero_le_one ![0, 1, 4] rfl (by norm_num)
  exact ⟨r, h, ((C147_ridge sv _ false false none none _ _ _ _).1 .serial _ _
    (drawn_fixed 1000 1 5 (-7) (by norm_num) (lineCoords 2) ⟨rfl, rfl⟩ 1 one_pos .Gaussian)).trans h⟩

/-- Generalised regression of three counts, the map turned by one radian. -/
example (tol : ℝ) : ∃ r, ggwrRun .Poisson tol 20 ⟨false, none⟩ ⟨100, false, .Boxcar⟩ (lineCoords 2) (ones 3) ![0, 1, 4] .serial = .ok r ∧
    ggwrRun .Poisson tol 20 ⟨false, none⟩ ⟨1 * 100, false, .Boxcar⟩ (movedPoints 1 1 0 0 (lineCoords 2)) (ones 3) ![0, 1, 4] .serial = .ok r := by
  obtain ⟨r, h, -⟩ := ex_ggwrRun tol .serial trivial
  exact ⟨r, h, (C147_generalised .Poisson tol 20 .serial false false none none _ _ _ _
    (drawn_fixed 1 1 0 0 one_pos (lineCoords 2) ⟨rfl, rfl⟩ 100 (by norm_num) .Boxcar) _ _).trans h⟩

example (y : Fin 3 → ℝ) := C147_robust true (fun _ => .serial) false false none none _ _ _ _
  (drawn_fixed 1000 1 5 (-7) (by norm_num) (lineCoords 2) ⟨rfl, rfl⟩ 1 one_pos .Gaussian) exX y true
example (e : GwdaEnv 2) (y : Fin 3 → Bool) := C147_discriminant e ⟨false, false, false⟩ false false none none _ _ _ _
  (drawn_fixed 1000 1 5 (-7) (by norm_num) (lineCoords 2) ⟨rfl, rfl⟩ 1 one_pos .Gaussian) exX y
example (svd : Matrix (Fin 3) (Fin 2) ℝ → SvdOut 2) := C147_components svd false false none none _ _ _ _
  (drawn_fixed 1000 1 5 (-7) (by norm_num) (lineCoords 2) ⟨rfl, rfl⟩ 1 one_pos .Gaussian) exX 1

end Verif.Props

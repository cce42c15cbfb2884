import Verif.Props.MapDrawingDistance

/-! # C147: how a planar map is drawn does not matter, whatever the bandwidth

Unlike in `Props/MapDrawing` no condition is put on the radii: bandwidths may be zero or negative, places may coincide, there may be too few
observations, and the sizes of the inputs need not fit. -/

namespace Verif.Props
open Verif Verif.Model Verif.Spec Matrix Classical

variable {n k m p : ℕ}

/-- The bandwidth for a map enlarged by `s`: a distance is enlarged too, a number of neighbours is not. -/
noncomputable def enlarged (s : ℝ) (b : BandwidthWeight) : BandwidthWeight := ⟨if b.mAdaptive = true then b.mBandwidth else s * b.mBandwidth, b.mAdaptive, b.mKernel⟩

theorem weightRows_any {s : ℝ} (hs : 0 < s) (θ t₀ t₁ : ℝ) (at₀ obs : DynMat) (b : BandwidthWeight) (n m : ℕ) :
    weightRows ⟨false, some (movedPoints s θ t₀ t₁ at₀, movedPoints s θ t₀ t₁ obs)⟩ (enlarged s b) n m = weightRows ⟨false, some (at₀, obs)⟩ b n m := by
  unfold enlarged
  by_cases ha : b.mAdaptive = true
  · rw [if_pos ha]
    exact weightRows_moved hs θ t₀ t₁ at₀ obs (.inl ha) n m
  · rw [if_neg ha]
    exact weightRows_enlarged hs θ t₀ t₁ at₀ obs (Bool.eq_false_iff.2 ha) b.mBandwidth n m

/-- **C147 (any bandwidth, basic, ridge and generalised regression).** On an enlarged, turned and shifted planar map, every run has the same outcome, exceptions
included, for every bandwidth, positive or not. -/
theorem C147_any_regression (s θ t₀ t₁ : ℝ) (hs : 0 < s) (par par' : Option (DynMat × DynMat)) (b : BandwidthWeight) (coords : DynMat)
    (x : Matrix (Fin n) (Fin k) ℝ) (y : Fin n → ℝ) :
    (∀ sS sC stop, gwrFit ⟨false, par'⟩ (enlarged s b) (movedPoints s θ t₀ t₁ coords) x y sS sC stop = gwrFit ⟨false, par⟩ b coords x y sS sC stop) ∧
    (∀ sv cfg ex, lcrRunIn sv cfg ex ⟨false, par'⟩ (enlarged s b) (movedPoints s θ t₀ t₁ coords) x y = lcrRunIn sv cfg ex ⟨false, par⟩ b coords x y) ∧
    ∀ F tol maxIter ex, ggwrRun F tol maxIter ⟨false, par'⟩ (enlarged s b) (movedPoints s θ t₀ t₁ coords) x y ex =
      ggwrRun F tol maxIter ⟨false, par⟩ b coords x y ex := by
  have hW := weightRows_any hs θ t₀ t₁ coords coords b n n
  refine ⟨fun sS sC stop => ?_, fun sv cfg ex => ?_, fun F tol maxIter ex => ?_⟩
  · unfold gwrFit
    exact bind_moved s θ t₀ t₁ par par' coords (by simp only [hW])
  · unfold lcrRunIn lcrFinishIn
    exact bind_moved s θ t₀ t₁ par par' coords (by simp only [hW])
  · unfold ggwrRun
    exact bind_moved s θ t₀ t₁ par par' coords (by simp only [hW])

/-- **C147 (any bandwidth, robust regression).** The same, but for the bandwidth that was given. -/
theorem C147_any_robust (s θ t₀ t₁ : ℝ) (hs : 0 < s) (filtered : Bool) (sched : (Fin n → ℝ) → Exec n) (par par' : Option (DynMat × DynMat))
    (b : BandwidthWeight) (coords : DynMat) (x : Matrix (Fin n) (Fin k) ℝ) (y : Fin n → ℝ) (sS : Bool) :
    robustRun filtered sched ⟨false, par'⟩ (enlarged s b) (movedPoints s θ t₀ t₁ coords) x y sS =
      (robustRun filtered sched ⟨false, par⟩ b coords x y sS).bind fun r => .ok { r with weight := enlarged s b } := by
  have hW := weightRows_any hs θ t₀ t₁ coords coords b n n
  unfold robustRun robustFinish
  have assoc : ∀ {α β γ : Type} (r : Res α) (f : α → Res β) (g : β → Res γ), (r.bind f).bind g = r.bind fun a => (f a).bind g := fun r f g => by
    cases r <;> rfl
  rw [assoc]
  refine bind_moved s θ t₀ t₁ par par' coords ?_
  rw [hW]
  cases weightRows ⟨false, some (coords, coords)⟩ b n n with
  | ok W =>
    simp only [Res.bind]
    cases robustCali filtered sched x y W sS <;> rfl
  | _ => rfl

/-- **C147 (any bandwidth, discriminant analysis and principal components).** -/
theorem C147_any_analysis {α : Type} [DecidableEq α] (s θ t₀ t₁ : ℝ) (hs : 0 < s) (par par' : Option (DynMat × DynMat)) (b : BandwidthWeight) (coords : DynMat) :
    (∀ (e : GwdaEnv k) (st : GwdaState) (x : Matrix (Fin n) (Fin k) ℝ) (y : Fin n → α),
      gwdaFull e st ⟨false, par'⟩ (enlarged s b) (movedPoints s θ t₀ t₁ coords) x y = gwdaFull e st ⟨false, par⟩ b coords x y) ∧
    ∀ (svd : Matrix (Fin (n + 1)) (Fin p) ℝ → SvdOut p) (x : Matrix (Fin (n + 1)) (Fin p) ℝ) (K : ℕ),
      gwpcaRun svd ⟨false, par'⟩ (enlarged s b) (movedPoints s θ t₀ t₁ coords) x K = gwpcaRun svd ⟨false, par⟩ b coords x K := by
  refine ⟨fun e st x y => ?_, fun svd x K => ?_⟩
  · unfold gwdaFull
    exact bind_moved s θ t₀ t₁ par par' coords (by simp only [weightRows_any hs θ t₀ t₁ coords coords b n n])
  · unfold gwpcaRun
    exact bind_moved s θ t₀ t₁ par par' coords (by simp only [weightRows_any hs θ t₀ t₁ coords coords b (n + 1) (n + 1)])

/-- Three points on a line and a bandwidth of zero, the map drawn a thousand times larger, turned and shifted. -/
example := C147_any_regression 1000 1 5 (-7) (by norm_num) none none ⟨0, false, .Bisquare⟩ (lineCoords 2) exX ![0, 1, 4]
/-- More neighbours than observations, and a negative number of them. -/
example := C147_any_robust 1000 1 5 (-7) (by norm_num) true (fun _ => .serial) none none ⟨7, true, .Bisquare⟩ (lineCoords 2) exX ![0, 1, 4] true
example := C147_any_analysis (α := ℕ) (n := 2) (k := 1) (p := 1) 1000 1 5 (-7) (by norm_num) none none ⟨-3, true, .Gaussian⟩ (lineCoords 2)

end Verif.Props

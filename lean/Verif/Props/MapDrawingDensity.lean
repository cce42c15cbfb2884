import Verif.Props.MapDrawingAny
import Verif.Props.GWDRRun

/-! # C147: density regression with other units on its axes -/

namespace Verif.Props
open Verif Verif.Model Verif.Spec Matrix Classical

variable {n k d : ℕ}

/-- The coordinates with axis `m` multiplied by `s m` (mirrored, if negative) and shifted by `t m`. -/
def otherUnits (s t : Fin d → ℝ) (coords : Matrix (Fin n) (Fin d) ℝ) : Matrix (Fin n) (Fin d) ℝ := fun l m => s m * coords l m + t m

theorem weight_any {s : ℝ} (hs : 0 < s) (b : BandwidthWeight) (dist : Fin n → ℝ) : (enlarged s b).weight (fun l => s * dist l) = b.weight dist := by
  unfold enlarged
  by_cases ha : b.mAdaptive = true
  · rw [if_pos ha]
    exact weight_scale hs ha dist
  · rw [if_neg ha]
    unfold BandwidthWeight.weight
    rw [if_neg ha, if_neg ha]
    exact kernelVec_scale hs _ _ _

theorem gwdrWeights_units {s : Fin d → ℝ} (hs : ∀ m, s m ≠ 0) (t : Fin d → ℝ) (bws : Fin d → BandwidthWeight) (coords : Matrix (Fin n) (Fin d) ℝ) :
    gwdrWeights (fun m => enlarged |s m| (bws m)) (otherUnits s t coords) = gwdrWeights bws coords := by
  unfold gwdrWeights
  congr 1
  funext i
  congr 2
  funext m
  rw [gwdrWeightVector_eq, gwdrWeightVector_eq, ← weight_any (abs_pos.2 (hs m)) (bws m)]
  congr 1
  funext l
  rw [← abs_mul]
  congr 1
  simp only [otherUnits]
  ring

/-- **C147 (density regression).** Every axis may have its own new unit, origin and direction. With the bandwidths that are distances in the new units, a
fit has the same outcome, exceptions included, but for the bandwidths that were given. -/
theorem C147_density (s t : Fin d → ℝ) (hs : ∀ m, s m ≠ 0) (ex : Exec n) (bws : Fin d → BandwidthWeight) (coords : Matrix (Fin n) (Fin d) ℝ)
    (x : Matrix (Fin n) (Fin k) ℝ) (y : Fin n → ℝ) (sS : Bool) :
    gwdrRun ex (fun m => enlarged |s m| (bws m)) (otherUnits s t coords) x y sS =
      (gwdrRun ex bws coords x y sS).bind fun r => .ok { r with weights := fun m => enlarged |s m| (bws m) } := by
  unfold gwdrRun gwdrFinish
  rw [gwdrWeights_units hs]
  cases gwdrEscape ex (gwdrWeights bws coords) with
  | ok D =>
    simp only [Res.bind]
    cases gwdrFitEx x y D sS ex <;> rfl
  | _ => rfl

/-- **C147 (density regression, selection).** With numbers of neighbours on all axes, the new units change neither the weights at any bandwidths, so that the minimiser
sees the same criterion, nor the point it starts from; when it then does the same, the selected bandwidths and the whole outcome are the same. -/
theorem C147_density_selection (s t : Fin d → ℝ) (hs : ∀ m, s m ≠ 0) (bws : Fin d → BandwidthWeight) (ha : ∀ m, (bws m).mAdaptive = true)
    (coords : Matrix (Fin n) (Fin d) ℝ) (x : Matrix (Fin n) (Fin k) ℝ) (y : Fin n → ℝ) :
    (∀ p : Fin d → ℝ, gwdrWeights (fun m => { bws m with mBandwidth := p m }) (otherUnits s t coords) =
      gwdrWeights (fun m => { bws m with mBandwidth := p m }) coords) ∧
    ∀ gsl eps maxIter ex sS, gwdrAutoRun gsl eps maxIter ex bws (otherUnits s t coords) x y sS = gwdrAutoRun gsl eps maxIter ex bws coords x y sS := by
  have hW : ∀ b : Fin d → BandwidthWeight, (∀ m, (b m).mAdaptive = true) → gwdrWeights b (otherUnits s t coords) = gwdrWeights b coords := by
    intro b hb
    have e : (fun m => enlarged |s m| (b m)) = b := funext fun m => by unfold enlarged; rw [if_pos (hb m)]
    have := gwdrWeights_units hs t b coords
    rwa [e] at this
  refine ⟨fun p => hW _ ha, fun gsl eps maxIter ex sS => ?_⟩
  have hstart : ∀ m, ∀ c : Fin n → ℝ, gwdrStart k (bws m) c =
      .ok (if (bws m).mBandwidth ≤ (k : ℝ) + 1 ∨ (n : ℝ) ≤ (bws m).mBandwidth then { bws m with mBandwidth := n * (618 / 1000) } else bws m) := fun m c => by
    unfold gwdrStart
    rw [if_pos (ha m), if_pos (ha m)]
    rfl
  have hB : gwdrBandwidths gsl eps maxIter bws (otherUnits s t coords) k = gwdrBandwidths gsl eps maxIter bws coords k := by
    unfold gwdrBandwidths
    simp only [hstart]
  unfold gwdrAutoRun
  rw [hB]
  cases hb : gwdrBandwidths gsl eps maxIter bws coords k with
  | ok b =>
    simp only [Res.bind]
    have hba : ∀ m, (b m).mAdaptive = true := by
      unfold gwdrBandwidths at hb
      obtain ⟨b0, h0, hb⟩ := Res.bind_eq_ok'.1 hb
      rw [Res.tabulate_eq_ok] at h0
      intro m
      have h := h0 m
      rw [hstart] at h
      have h1 : (b0 m).mAdaptive = true := by
        rw [← Res.ok.inj h]
        split
        · exact ha m
        · exact ha m
      simp only at hb
      split at hb
      · rw [← Res.ok.inj hb]; exact h1
      · exact absurd hb (by simp)
    unfold gwdrFinish
    rw [hW b hba]
  | _ => rfl

/-- Metres to kilometres on one axis, a mirrored and shifted second axis. -/
example (n : ℕ) (y : Fin n → ℝ) (coords : Matrix (Fin n) (Fin 2) ℝ) :
    ∃ r, gwdrRun .serial (fun m => enlarged |(![1 / 1000, -1] : Fin 2 → ℝ) m| ((![⟨2, false, .Gaussian⟩, ⟨3, false, .Boxcar⟩] : Fin 2 → BandwidthWeight) m))
      (otherUnits ![1 / 1000, -1] ![0, 7] coords) (ones n) y true = .ok r := by
  obtain ⟨r, h⟩ := ones_axis_success ![⟨2, false, .Gaussian⟩, ⟨3, false, .Boxcar⟩] coords y true fun m => by fin_cases m <;> norm_num
  have h' : gwdrRun .serial ![⟨2, false, .Gaussian⟩, ⟨3, false, .Boxcar⟩] coords (ones n) y true = .ok r := h
  rw [C147_density ![1 / 1000, -1] ![0, 7] (fun m => by fin_cases m <;> norm_num), h']
  exact ⟨_, rfl⟩
/-- Ten observations, numbers of neighbours on both axes. -/
example (x : Matrix (Fin 10) (Fin 2) ℝ) (y : Fin 10 → ℝ) (coords : Matrix (Fin 10) (Fin 2) ℝ) :=
  C147_density_selection ![1 / 1000, -1] ![0, 7] (fun m => by fin_cases m <;> norm_num) ![⟨5, true, .Gaussian⟩, ⟨6, true, .Bisquare⟩]
    (fun m => by fin_cases m <;> rfl) coords x y

end Verif.Props

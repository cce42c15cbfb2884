import Verif.Props.MapDrawingDistance

/-! # C147: distances selected for ridge and generalised regression on an enlarged map -/

namespace Verif.Props
open Verif Verif.Model Verif.Spec Matrix Classical

variable {n k : ℕ}

/-- How the outcomes of a search for a distance on a map and on one enlarged by `s` are related: both fail, or the selected distances differ by at most
0.0002 in units of the first map. -/
def NearlyScaled (s : ℝ) (b0 : BandwidthWeight) (r r' : SearchResult) : Prop :=
  (r.out = .throw .runtime ∧ r'.out = .throw .runtime) ∨
    ∃ z z', r.out = .ok { b0 with mBandwidth := z } ∧ r'.out = .ok { b0 with mBandwidth := z' } ∧ |z' / s - z| ≤ 0.0002

/-- **C147 (selected distance, scale, ridge regression).** Whenever both searches get a value from each of their evaluations, neither selects,
or the distances they select differ by at most 0.0002 in units of the first map. -/
theorem C147_ridge_selected_distance (sv : Matrix (Fin n) (Fin k) ℝ → ℝ × ℝ) (cfg : LcrCfg) (b0 : BandwidthWeight) (hb : b0.mAdaptive = false) (coords : DynMat)
    (s θ t₀ t₁ : ℝ) (hs : 1 ≤ s) (x : Matrix (Fin n) (Fin k) ℝ) (y : Fin n → ℝ) (r r' : SearchResult)
    (h : lcrSelectBandwidth sv cfg ⟨false, some (coords, coords)⟩ b0 x y = .ok r)
    (h' : lcrSelectBandwidth sv cfg ⟨false, some (movedPoints s θ t₀ t₁ coords, movedPoints s θ t₀ t₁ coords)⟩ b0 x y = .ok r') :
    NearlyScaled s b0 r r' := by
  have hs0 : 0 < s := by linarith
  unfold lcrSelectBandwidth at h h'
  obtain ⟨bw, ad, K⟩ := b0
  change ad = false at hb
  subst hb
  simp only [Bool.false_eq_true, if_false] at h h'
  rw [maxDistance_enlarged hs0] at h'
  obtain ⟨u, hu, h⟩ := Res.bind_eq_ok'.1 h
  rw [hu] at h'
  simp only [Res.bind] at h'
  split at h
  swap
  · cases h
  split at h'
  swap
  · cases h'
  cases Res.ok.inj h
  cases Res.ok.inj h'
  have := optimize_scaled hs (b := ⟨bw, false, K⟩) rfl (F := lcrScore sv cfg ⟨false, some (coords, coords)⟩ x y)
    (F' := lcrScore sv cfg ⟨false, some (movedPoints s θ t₀ t₁ coords, movedPoints s θ t₀ t₁ coords)⟩ x y)
    (fun z => by simp only [lcrScore, lcrCriterion, weightRows_enlarged hs0 θ t₀ t₁ coords coords (b := ⟨bw, false, K⟩) rfl z]) (maxLoop_ge hu) [] []
  rw [mul_zero] at this
  rcases this with h0 | ⟨z, z', h1, h2, h3, -⟩
  · exact .inl h0
  · exact .inr ⟨z, z', h1, h2, h3⟩

/-- **C147 (selected distance, scale, generalised regression).** The same for Poisson and binomial regression by either criterion. -/
theorem C147_generalised_selected_distance (F : Family) (tol : ℝ) (maxIter : ℕ) (crit : GgwrCriterionType) (b0 : BandwidthWeight)
    (hb : b0.mAdaptive = false) (coords : DynMat) (s θ t₀ t₁ : ℝ) (hs : 1 ≤ s) (x : Matrix (Fin n) (Fin k) ℝ) (y : Fin n → ℝ) (r r' : SearchResult)
    (h : ggwrSelectBandwidth F tol maxIter crit ⟨false, some (coords, coords)⟩ b0 x y = .ok r)
    (h' : ggwrSelectBandwidth F tol maxIter crit ⟨false, some (movedPoints s θ t₀ t₁ coords, movedPoints s θ t₀ t₁ coords)⟩ b0 x y = .ok r') :
    NearlyScaled s b0 r r' := by
  have hs0 : 0 < s := by linarith
  unfold ggwrSelectBandwidth at h h'
  obtain ⟨bw, ad, K⟩ := b0
  change ad = false at hb
  subst hb
  simp only [Bool.false_eq_true, if_false] at h h'
  rw [maxDistance_enlarged hs0] at h'
  obtain ⟨u, hu, h⟩ := Res.bind_eq_ok'.1 h
  rw [hu] at h'
  simp only [Res.bind] at h'
  split at h
  swap
  · cases h
  split at h'
  swap
  · cases h'
  cases Res.ok.inj h
  cases Res.ok.inj h'
  have := optimize_scaled hs (b := ⟨bw, false, K⟩) rfl (F := ggwrScore F tol maxIter crit ⟨false, some (coords, coords)⟩ x y)
    (F' := ggwrScore F tol maxIter crit ⟨false, some (movedPoints s θ t₀ t₁ coords, movedPoints s θ t₀ t₁ coords)⟩ x y)
    (fun z => by simp only [ggwrScore, ggwrCriterion, weightRows_enlarged hs0 θ t₀ t₁ coords coords (b := ⟨bw, false, K⟩) rfl z]) (maxLoop_ge hu) [] []
  rw [mul_zero] at this
  rcases this with h0 | ⟨z, z', h1, h2, h3, -⟩
  · exact .inl h0
  · exact .inr ⟨z, z', h1, h2, h3⟩

end Verif.Props

import Verif.Model.GTWR
import Verif.Props.GWRRun
import Verif.Props.Distance
import Verif.Lemmas.Rows

/-!
# Space-time regression (C44, C74–C77)
-/

namespace Verif.Props
open Verif Verif.Model Verif.Spec Matrix

variable {n k m T : ℕ}

/-! ## The search for lambda -/

theorem ratio_sq : lambdaRatio ^ 2 = 1 - lambdaRatio := by
  unfold lambdaRatio
  have := Real.sq_sqrt (show (0 : ℝ) ≤ 5 by norm_num)
  nlinarith

theorem ratio_gt : 0.618 < lambdaRatio := by
  unfold lambdaRatio
  have : (2.236 : ℝ) < √5 := Real.lt_sqrt_of_sq_lt (by norm_num)
  linarith

theorem ratio_lt : lambdaRatio < 0.6181 := by
  unfold lambdaRatio
  have : √5 < (2.2362 : ℝ) := (Real.sqrt_lt' (by norm_num)).2 (by norm_num)
  linarith

/-- Shape of the bracket after `j` rounds. -/
structure Bracket (s : LambdaState) (j : ℕ) : Prop where
  a0 : 0 ≤ s.a
  b1 : s.b ≤ 1
  width : s.b - s.a = lambdaRatio ^ j
  p_eq : s.p = s.a + (1 - lambdaRatio) * (s.b - s.a)
  q_eq : s.q = s.a + lambdaRatio * (s.b - s.a)
  evals01 : ∀ e ∈ s.evals, 0 ≤ e ∧ e ≤ 1
  count : s.evals.length = j + 4

theorem ratio_pos : 0 < lambdaRatio := by have := ratio_gt; linarith

theorem bracket_init {R : ℕ → ℝ → Res (Bool × Option ℝ)} {s : LambdaState} (h : lambdaInit R = .ok s) : Bracket s 0 := by
  have r1 := ratio_gt
  have r2 := ratio_lt
  unfold lambdaInit at h
  simp only [Res.bind_eq_ok'] at h
  obtain ⟨ra, -, rb, -, rp, -, rq, -, h⟩ := h
  have := Res.ok.inj h
  subst this
  refine ⟨le_rfl, le_rfl, by simp, by simp, by simp, ?_, rfl⟩
  intro e he
  simp only [List.mem_cons, List.not_mem_nil, or_false] at he
  rcases he with rfl | rfl | rfl | rfl <;> constructor <;> linarith

theorem bracket_step {R : ℕ → ℝ → Res (Bool × Option ℝ)} {s s' : LambdaState} {j : ℕ} (hs : Bracket s j)
    (h : lambdaStep R s = .ok s') : Bracket s' (j + 1) := by
  have r1 := ratio_gt
  have r2 := ratio_lt
  have hsq := ratio_sq
  obtain ⟨h1, h2, h3, h4, h5, h6, h7⟩ := hs
  have hw : 0 < lambdaRatio ^ j := pow_pos ratio_pos j
  unfold lambdaStep at h
  split at h <;> rw [Res.bind_eq_ok'] at h <;> obtain ⟨r, -, h⟩ := h <;> have := Res.ok.inj h <;> subst this
  · have hb : s.q - s.a = lambdaRatio * lambdaRatio ^ j := by rw [h5, h3]; ring
    refine ⟨h1, ?_, ?_, rfl, ?_, ?_, ?_⟩
    · show s.q ≤ 1
      nlinarith
    · show s.q - s.a = _
      rw [hb, pow_succ]; ring
    · show s.p = s.a + lambdaRatio * (s.q - s.a)
      rw [hb, h4, h3]
      linear_combination (-(lambdaRatio ^ j)) * hsq
    · intro e he
      simp only [List.mem_append, List.mem_singleton] at he
      rcases he with he | rfl
      · exact h6 e he
      · rw [hb]
        have : 0 < lambdaRatio * lambdaRatio ^ j := mul_pos ratio_pos hw
        constructor <;> nlinarith
    · simp [h7]
  · have hb : s.b - s.p = lambdaRatio * lambdaRatio ^ j := by rw [h4]; linear_combination lambdaRatio * h3
    refine ⟨?_, h2, ?_, ?_, rfl, ?_, ?_⟩
    · show 0 ≤ s.p
      rw [h4, h3]
      nlinarith
    · show s.b - s.p = _
      rw [hb, pow_succ]; ring
    · show s.q = s.p + (1 - lambdaRatio) * (s.b - s.p)
      rw [hb, h5, h4, h3]
      linear_combination (lambdaRatio ^ j) * hsq
    · intro e he
      simp only [List.mem_append, List.mem_singleton] at he
      rcases he with he | rfl
      · exact h6 e he
      · rw [hb]
        have : 0 < lambdaRatio * lambdaRatio ^ j := mul_pos ratio_pos hw
        have hp : 0 ≤ s.p := by rw [h4, h3]; nlinarith
        constructor <;> nlinarith
    · simp [h7]

/-- Invariants of the loop: `I` holds initially and is kept by a round; at the end the loop condition is false or all rounds are
used. -/
theorem lambdaLoop_inv {R : ℕ → ℝ → Res (Bool × Option ℝ)} (I : LambdaState → ℕ → Prop)
    (hstep : ∀ s s' j, I s j → s.sm = true → lambdaApart s.fa s.fb → lambdaStep R s = .ok s' → I s' (j + 1)) :
    ∀ (fuel : ℕ) (s s' : LambdaState) (j : ℕ), I s j → lambdaLoop R fuel s = .ok s' →
      ∃ j', I s' j' ∧ j ≤ j' ∧ j' ≤ j + fuel ∧ (j' < j + fuel → ¬ (s'.sm = true ∧ lambdaApart s'.fa s'.fb))
  | 0, s, s', j, hI, h => by
    have := Res.ok.inj h
    subst this
    exact ⟨j, hI, le_rfl, le_rfl, fun h => absurd h (by omega)⟩
  | fuel + 1, s, s', j, hI, h => by
    rw [lambdaLoop] at h
    split at h
    · rename_i hc
      rw [Res.bind_eq_ok'] at h
      obtain ⟨s1, h1, h⟩ := h
      obtain ⟨j', a, b, c, d⟩ := lambdaLoop_inv I hstep fuel s1 s' (j + 1) (hstep s s1 j hI hc.1 hc.2 h1) h
      exact ⟨j', a, by omega, by omega, fun hj => d (by omega)⟩
    · rename_i hc
      have := Res.ok.inj h
      subst this
      exact ⟨j, hI, le_rfl, by omega, fun _ => hc⟩

/-- **C44.** For every objective — R² may depend on lambda and on the history in any way, be non-finite, and stop requests may
come at any moment — the selected lambda is in [0,1], and so is every lambda tried; there are at least 4 and at most 104
evaluations. If a stop request ended the search, lambda is 0. -/
theorem C44_lambda_in_range (R : ℕ → ℝ → Res (Bool × Option ℝ)) (l : ℝ) (s : LambdaState)
    (h : lambdaAutoSelection R = .ok (l, s)) :
    (0 ≤ l ∧ l ≤ 1) ∧ (∀ e ∈ s.evals, 0 ≤ e ∧ e ≤ 1) ∧ 4 ≤ s.evals.length ∧ s.evals.length ≤ 104 ∧
      (s.sm = false → l = 0) := by
  unfold lambdaAutoSelection at h
  simp only [Res.bind_eq_ok'] at h
  obtain ⟨s0, h0, s1, h1, h⟩ := h
  obtain ⟨j, hb, -, hj, -⟩ := lambdaLoop_inv (fun s j => Bracket s j) (fun s s' j hI _ _ h => bracket_step hI h) 100 s0 s1 0
    (bracket_init h0) h1
  have := Res.ok.inj h
  simp only [Prod.mk.injEq] at this
  obtain ⟨rfl, rfl⟩ := this
  have hw : 0 < lambdaRatio ^ j := pow_pos ratio_pos j
  have := hb.a0
  have := hb.b1
  have := hb.width
  refine ⟨?_, hb.evals01, by rw [hb.count]; omega, by rw [hb.count]; omega, fun hs => by simp [hs]⟩
  split
  · constructor <;> linarith
  · norm_num

/-- **C44.** The search ends with a lambda whenever every evaluation of R² returns. -/
theorem C44_search_ends (R : ℕ → ℝ → Res (Bool × Option ℝ)) (hR : ∀ j l, ∃ r, R j l = .ok r) :
    ∃ l s, lambdaAutoSelection R = .ok (l, s) := by
  choose r hr using hR
  have hstep : ∀ s, ∃ s', lambdaStep R s = .ok s' := by
    intro s
    unfold lambdaStep
    simp only [hr, Res.bind]
    split <;> exact ⟨_, rfl⟩
  have hloop : ∀ fuel s, ∃ s', lambdaLoop R fuel s = .ok s' := by
    intro fuel
    induction fuel with
    | zero => exact fun s => ⟨s, rfl⟩
    | succ fuel ih =>
      intro s
      rw [lambdaLoop]
      split
      · obtain ⟨s', hs'⟩ := hstep s
        rw [hs']
        exact ih s'
      · exact ⟨s, rfl⟩
  unfold lambdaAutoSelection lambdaInit
  simp only [hr, Res.bind]
  rw [(hloop 100 _).choose_spec]
  exact ⟨_, _, rfl⟩

/-- Every lambda tried is accepted by the setter of the distance: the search never throws because of its own lambda. The result
of a fit with automatic lambda is the fit with the selected lambda. -/
theorem C44_fit_uses_selected (d : CRSSTDistance) (b : BandwidthWeight) (coords : DynMat) (times : List ℝ)
    (x : Matrix (Fin n) (Fin k) ℝ) (y : Fin n → ℝ) (sS : Bool) (l : ℝ) (a : FitAcc n k × Bool)
    (h : gtwrLambdaFit d b coords times x y sS = .ok (l, a)) :
    (0 ≤ l ∧ l ≤ 1) ∧ gtwrFit { d with mLambda := l } b coords times x y sS NoStop = .ok a := by
  unfold gtwrLambdaFit at h
  rw [Res.bind_eq_ok'] at h
  obtain ⟨⟨l', s⟩, h1, h⟩ := h
  have hl := (C44_lambda_in_range _ _ _ h1).1
  simp only at h
  rw [(C12_setLambda d l').1 hl] at h
  simp only [Res.bind_eq_ok'] at h
  obtain ⟨a', h2, h⟩ := h
  have := Res.ok.inj h
  simp only [Prod.mk.injEq] at this
  obtain ⟨rfl, rfl⟩ := this
  exact ⟨hl, h2⟩

/-! ## Quality of the selected lambda -/

/-- A function on [0,1] that rises strictly up to `m` and falls strictly after it. -/
def UnimodalAt (f : ℝ → ℝ) (m : ℝ) : Prop :=
  0 ≤ m ∧ m ≤ 1 ∧ StrictMonoOn f (Set.Icc 0 m) ∧ StrictAntiOn f (Set.Icc m 1)

/-- **C74.** If R² is a function of lambda with a single peak at `m`, the final bracket contains the peak and the selected lambda
is within half the width of the bracket of it: after `j` rounds, `0.618^j / 2`. The search uses all 100 rounds unless R² at the
two ends of the bracket agrees up to 1e-12. Missing from the full claim (lambda close to the best one): with agreeing ends the
search stops at once, see `C74_equal_ends_stop`. -/
theorem C74_single_peak_partial (f : ℝ → ℝ) (m : ℝ) (hm : UnimodalAt f m) (l : ℝ) (s : LambdaState)
    (h : lambdaAutoSelection (fun _ l => .ok (false, some (f l))) = .ok (l, s)) :
    s.a ≤ m ∧ m ≤ s.b ∧ |l - m| ≤ ((√5 - 1) / 2) ^ (s.evals.length - 4) / 2 ∧
      (s.evals.length = 104 ∨ |f s.a - f s.b| < 1e-12) := by
  unfold lambdaAutoSelection at h
  simp only [Res.bind_eq_ok'] at h
  obtain ⟨s0, h0, s1, h1, h⟩ := h
  obtain ⟨hm0, hm1, hinc, hdec⟩ := hm
  have hinit : Bracket s0 0 ∧ s0.sm = true ∧ s0.fa = some (f s0.a) ∧ s0.fb = some (f s0.b) ∧ s0.fp = some (f s0.p) ∧
      s0.fq = some (f s0.q) ∧ s0.a ≤ m ∧ m ≤ s0.b := by
    refine ⟨bracket_init h0, ?_⟩
    have := Res.ok.inj h0
    subst this
    exact ⟨rfl, rfl, rfl, rfl, rfl, hm0, hm1⟩
  obtain ⟨j, ⟨hb, hsm, hfa, hfb, -, -, ha, hbm⟩, -, hj, hend⟩ := lambdaLoop_inv (fun s j => Bracket s j ∧ s.sm = true ∧ s.fa = some (f s.a) ∧
      s.fb = some (f s.b) ∧ s.fp = some (f s.p) ∧ s.fq = some (f s.q) ∧ s.a ≤ m ∧ m ≤ s.b) (by
    rintro s s' j ⟨hI, hsm, hfa, hfb, hfp, hfq, ha, hb⟩ - - hst
    refine ⟨bracket_step hI hst, ?_⟩
    have hw : 0 < lambdaRatio ^ j := pow_pos ratio_pos j
    have r1 := ratio_gt
    have r2 := ratio_lt
    have hpq : s.p < s.q := by rw [hI.p_eq, hI.q_eq, hI.width]; nlinarith
    have hp0 : 0 ≤ s.p := by have := hI.a0; rw [hI.p_eq, hI.width]; nlinarith
    have hq1 : s.q ≤ 1 := by have := hI.b1; have := hI.width; rw [hI.q_eq]; nlinarith
    unfold lambdaStep at hst
    split at hst
    · rename_i hgt
      rw [hfp, hfq] at hgt
      have hgt : f s.p > f s.q := hgt
      have := Res.ok.inj hst
      subst this
      refine ⟨by simp [hsm], hfa, hfq, rfl, hfp, ha, ?_⟩
      by_contra hc
      have hc : s.q < m := not_le.1 hc
      exact absurd (hinc ⟨hp0, by linarith⟩ ⟨by linarith, hc.le⟩ hpq) (by linarith)
    · rename_i hgt
      rw [hfp, hfq] at hgt
      have hgt : ¬ (f s.p > f s.q) := hgt
      have := Res.ok.inj hst
      subst this
      refine ⟨by simp [hsm], hfp, hfb, hfq, rfl, ?_, hb⟩
      by_contra hc
      have hc : m < s.p := not_le.1 hc
      exact hgt (hdec ⟨hc.le, by linarith⟩ ⟨by linarith, hq1⟩ hpq)) 100 s0 s1 0 hinit h1
  have := Res.ok.inj h
  simp only [Prod.mk.injEq] at this
  obtain ⟨rfl, rfl⟩ := this
  refine ⟨ha, hbm, ?_, ?_⟩
  · rw [if_pos hsm, hb.count]
    have hw := hb.width
    unfold lambdaRatio at hw
    rw [show j + 4 - 4 = j by omega, ← hw, abs_le]
    constructor <;> linarith
  · rw [hb.count]
    by_cases hj' : j < 0 + 100
    · right
      have := hend hj'
      rw [hfa, hfb] at this
      have h2 : ¬ (|f s1.a - f s1.b| ≥ 1e-12) := fun hh => this ⟨hsm, hh⟩
      exact not_le.1 h2
    · left; omega

/-! ## Space-time weights -/

/-- The space-time distance the library documents, between a focus at time `ti` and an observation at time `tj` whose spatial
distance is `s`: `s` for λ = 1; else `λ s + (1-λ) t + 2 √(λ(1-λ) s t) c` with `t = ti - tj`, where observations of the future get
the sentinel 10^13. -/
noncomputable def stElem (l c s ti tj : ℝ) : ℝ :=
  if l = 1 then s
  else if ti < tj then 10000000000000
  else l * s + (1 - l) * (ti - tj) + 2 * √(l * (1 - l) * s * (ti - tj)) * c

/-- The factor of the mixed term. -/
noncomputable def stFactor (d : CRSSTDistance) : ℝ :=
  match d.mCalc with
  | .orthogonal => 1
  | .oblique => Real.cos d.mAngle

/-- A planar space-time distance object with `n` observations, and a λ that is 1 or differs from 1 by at least the resolution of
`double` there. -/
structure STData (n : ℕ) (d : CRSSTDistance) (coords : DynMat) : Prop where
  spatial : ∃ s, d.mSpatial = some s ∧ s.mGeographic = false
  temporal : ∃ t, d.mTemporal = some t
  lam : d.mLambda = 1 ∨ ¬ |d.mLambda - 1| < 1e-16
  cols : coords.nCols = 2
  rows : coords.nRows = n

theorem gtwrBind_eq {d : CRSSTDistance} {s : CRSDistance} {t : OneDimDistance} (hs : d.mSpatial = some s) (ht : d.mTemporal = some t)
    {coords : DynMat} {times : List ℝ} (h2 : coords.nCols = 2) (hl : coords.nRows = times.length) :
    gtwrBind d coords times = .ok { d with
      mSpatial := some { s with mParameter := some (coords, coords) }
      mTemporal := some ⟨some (times, times)⟩
      mParameter := some coords.nRows } := by
  unfold gtwrBind CRSSTDistance.makeParameter
  simp only [DistParam.getMat, DistParam.getVec, hs, ht, true_and, hl, and_true, if_true, CRSDistance.makeParameter, h2, and_self,
    OneDimDistance.makeParameter]

/-- The distances in a planar space-time setting. -/
theorem st_distance {d : CRSSTDistance} {coords : DynMat} (hd : STData n d coords) (τ : Fin n → ℝ) :
    ∃ d', gtwrBind d coords (List.ofFn τ) = .ok d' ∧ d'.mParameter = some n ∧
      (∀ i : Fin n, d'.distance i = .ok (List.ofFn fun j =>
        stElem d.mLambda (stFactor d) (euclid (coords.val i) (coords.val j)) (τ i) (τ j))) ∧
      ∀ i, n ≤ i → d'.distance i = .throw .runtime := by
  obtain ⟨⟨s, hs, hg⟩, ⟨t, ht⟩, hlam, h2, hn⟩ := hd
  refine ⟨_, gtwrBind_eq hs ht h2 (by rw [hn, List.length_ofFn]), by simp [hn], fun i => ?_, fun i hi => ?_⟩
  · have hrow : crsDistRow false coords coords i = .ok (List.ofFn fun j : Fin n => euclid (coords.val i) (coords.val j)) := by
      unfold crsDistRow
      rw [mapRes_eq_ok, List.forall₂_iff_get]
      refine ⟨by simp [hn], fun j h1 h2 => ?_⟩
      simp [crsCalc]
    rcases hlam with h1 | h1
    · have ht' : OneDimDistance.distance ⟨some (List.ofFn τ, List.ofFn τ)⟩ i =
          .ok ((List.ofFn τ).map fun x => |x - τ i|) := by
        simp [OneDimDistance.distance]
      have := C12_lambda_one d.mCalc { s with mParameter := some (coords, coords) } ⟨some (List.ofFn τ, List.ofFn τ)⟩ i d.mAngle
        (List.ofFn fun j : Fin n => euclid (coords.val i) (coords.val j)) _
        (by simp only [CRSDistance.distance, hn, i.isLt, if_true, hg, hrow]) ht' (by simp)
      simp only [CRSSTDistance.distance, h1, this, stElem, if_true]
    · have hne : d.mLambda ≠ 1 := by
        intro h
        rw [h] at h1
        norm_num at h1
      simp only [CRSSTDistance.distance, stDistance, CRSDistance.distance, hg, hn, i.isLt, if_true, hrow, Res.bind, if_neg h1,
        OneDimDistance.noAbsdistance, dif_pos, List.length_ofFn, List.length_map, ne_eq, not_true_eq_false, if_false]
      congr 1
      apply List.ext_getElem
      · simp
      · intro j h1 h2
        simp only [List.getElem_zipWith, List.getElem_ofFn, List.getElem_map, stElem, stCombine, futureSentinel, sub_neg, stFactor,
          hne, if_false]
        rfl
  · simp only [CRSSTDistance.distance, stDistance, CRSDistance.distance, hn, if_neg (not_lt.2 hi), Res.bind]

theorem rowToVec_ofFn (f : Fin n → ℝ) : rowToVec (List.ofFn f) n = .ok f := by
  unfold rowToVec
  rw [dif_pos (List.length_ofFn)]
  congr 1
  funext i
  simp

/-- The weights of observation `i` in a planar space-time setting. -/
theorem st_weights {d : CRSSTDistance} {coords : DynMat} (hd : STData n d coords) (τ : Fin n → ℝ) (b : BandwidthWeight) :
    ∃ d', gtwrBind d coords (List.ofFn τ) = .ok d' ∧
      (∀ i : Fin n, stWeightVector d' b n i = b.weight fun j =>
        stElem d.mLambda (stFactor d) (euclid (coords.val i) (coords.val j)) (τ i) (τ j)) ∧
      ∀ i, n ≤ i → stWeightVector d' b n i = .throw .runtime := by
  obtain ⟨d', h1, -, h2, h3⟩ := st_distance hd τ
  refine ⟨d', h1, fun i => ?_, fun i hi => ?_⟩
  · unfold stWeightVector
    rw [h2, Res.bind, rowToVec_ofFn, Res.bind]
  · unfold stWeightVector
    rw [h3 i hi, Res.bind]

/-- **C75.** Space-time regression is local weighted least squares: after a completed fit the coefficients of observation `i` are
the unique minimiser of the weighted residual sum of squares, with weights obtained by applying the kernel to the documented
space-time distances from observation `i`. -/
theorem C75_fit_is_weighted_least_squares (d : CRSSTDistance) (b : BandwidthWeight) (coords : DynMat) (hd : STData n d coords)
    (τ : Fin n → ℝ) (x : Matrix (Fin n) (Fin k) ℝ) (y : Fin n → ℝ) (sS : Bool) (stop : ℕ → Bool) (a : FitAcc n k)
    (h : gtwrFit d b coords (List.ofFn τ) x y sS stop = .ok (a, false)) (i : Fin n) :
    ∃ w, b.weight (fun j => stElem d.mLambda (stFactor d) (euclid (coords.val i) (coords.val j)) (τ i) (τ j)) = .ok w ∧
      IsWLS x y w (a.betas i) := by
  obtain ⟨d', h1, h2, -⟩ := st_weights hd τ b
  unfold gtwrFit at h
  rw [h1, Res.bind, Res.bind_eq_ok'] at h
  obtain ⟨W, hW, h⟩ := h
  refine ⟨W i, ?_, C21_fit_is_weighted_least_squares x y W sS false stop a h i⟩
  rw [← h2 i]
  exact Res.tabulate_eq_ok.1 hW i

/-- **C76.** Observations of the future do not influence the past: with λ < 1, a fixed bandwidth below 10^13 and a kernel of bounded
support, the coefficients of observation `i` are the same for two data sets that differ only in observations later than `i`.
Missing from the full claim: kernels of unbounded support with an adaptive bandwidth, where it fails
(`C76_adaptive_uses_future`). -/
theorem C76_future_ignored_partial (d : CRSSTDistance) (b : BandwidthWeight) (coords : DynMat) (hd : STData n d coords)
    (hl : d.mLambda ≠ 1) (hlr : 0 ≤ d.mLambda ∧ d.mLambda ≤ 1)
    (hfix : b.mAdaptive = false) (hb : 0 < b.mBandwidth) (hb' : b.mBandwidth < 10000000000000)
    (hk : b.mKernel ≠ .Gaussian ∧ b.mKernel ≠ .Exponential)
    (τ : Fin n → ℝ) (x x' : Matrix (Fin n) (Fin k) ℝ) (y y' : Fin n → ℝ) (sS : Bool) (stop : ℕ → Bool) (a a' : FitAcc n k)
    (h : gtwrFit d b coords (List.ofFn τ) x y sS stop = .ok (a, false))
    (h' : gtwrFit d b coords (List.ofFn τ) x' y' sS stop = .ok (a', false)) (i : Fin n)
    (hsame : ∀ j, τ j ≤ τ i → x j = x' j ∧ y j = y' j) : a.betas i = a'.betas i := by
  obtain ⟨d', h1, hdist, -⟩ := st_weights hd τ b
  unfold gtwrFit at h h'
  rw [h1, Res.bind, Res.bind_eq_ok'] at h h'
  obtain ⟨W, hW, h⟩ := h
  obtain ⟨W', hW', h'⟩ := h'
  have := Res.ok.inj (hW.symm.trans hW')
  subst this
  refine C23_zero_weight_ignored x x' y y' W sS false stop a a' h h' i fun j hj => hsame j ?_
  by_contra hc
  have hc : τ i < τ j := not_le.1 hc
  have hw := Res.tabulate_eq_ok.1 hW i
  rw [hdist i] at hw
  obtain ⟨s, hs, hg⟩ := hd.spatial
  obtain ⟨d2, e1, -, e2, -⟩ := st_distance hd τ
  have hd2 := Res.ok.inj (e1.symm.trans h1)
  subst hd2
  have hnn : ∀ j : Fin n, 0 ≤ stElem d.mLambda (stFactor d) (euclid (coords.val i) (coords.val j)) (τ i) (τ j) := by
    intro j
    unfold stElem
    rw [if_neg hl]
    split
    · norm_num
    · rename_i ht
      refine (C12_combine_nonneg_mono d.mLambda (stFactor d) _ (τ i - τ j) _ _ hlr.1 hlr.2 ?_ (Real.sqrt_nonneg _)
        (by linarith) le_rfl le_rfl).1
      unfold stFactor
      split
      · norm_num
      · exact Real.abs_cos_le_one _
  refine hj ((C02_support_fixed b _ _ hfix hb hnn hw j).2 ⟨hk.1, hk.2, ?_⟩)
  unfold stElem
  rw [if_neg hl, if_pos hc]
  exact hb'.le

/-! ## Data with a constant covariate -/

/-- The design matrix of a model with an intercept only. -/
def ones (n : ℕ) : Matrix (Fin n) (Fin 1) ℝ := fun _ _ => 1

theorem ones_determined {w : Fin n → ℝ} (hw : ∀ l, 0 ≤ w l) (h : ∃ l, 0 < w l) : (xtwx (ones n) w).PosDef := by
  rw [gram_posDef_iff_determined _ _ hw]
  intro b hb
  obtain ⟨l, hl⟩ := h
  have := hb l hl
  simp [ones] at this
  funext j
  fin_cases j
  exact this

/-- With an intercept only the local coefficient is the weighted mean. -/
theorem ones_beta {w : Fin n → ℝ} (hw : ∀ l, 0 ≤ w l) (h : ∃ l, 0 < w l) (y : Fin n → ℝ) :
    localBeta (ones n) y w = .ok (fun _ => (∑ l, w l * y l) / ∑ l, w l) := by
  have hp := ones_determined hw h
  refine localBeta_eq_ok.2 ⟨hp, ?_⟩
  have hpos : 0 < ∑ l, w l := by
    obtain ⟨l, hl⟩ := h
    exact Finset.sum_pos' (fun l _ => hw l) ⟨l, Finset.mem_univ l, hl⟩
  have hn := normal_equations (y := y) hp
  generalize (xtwx (ones n) w)⁻¹ *ᵥ (xtw (ones n) w *ᵥ y) = v at hn ⊢
  have := congrFun hn 0
  simp only [mulVec, dotProduct, xtwx_apply, xtw, of_apply, ones, Fin.sum_univ_one, one_mul, mul_one] at this
  funext j
  fin_cases j
  show _ = v 0
  rw [div_eq_iff hpos.ne', mul_comm, this]

/-- A space-time distance as a user makes it: planar, λ = `l`. -/
noncomputable def exST (l : ℝ) : CRSSTDistance := CRSSTDistance.new (CRSDistance.new false) ⟨none⟩ l

theorem exST_data (l : ℝ) (hl : l = 1 ∨ ¬ |l - 1| < 1e-16) (coords : DynMat) (h2 : coords.nCols = 2) (hn : coords.nRows = n) :
    STData n (exST l) coords :=
  ⟨⟨_, rfl, rfl⟩, ⟨_, rfl⟩, hl, h2, hn⟩

/-- Two observations at one place. -/
def samePlace : DynMat := ⟨2, 2, fun _ _ => 0⟩

/-- The weights for two observations at one place at times 0 and 1, λ = 1/2, adaptive bandwidth of both observations, Gaussian. -/
theorem future_weights (i : Fin 2) : ∃ w : Fin 2 → ℝ,
    (⟨2, true, .Gaussian⟩ : BandwidthWeight).weight (fun j =>
      stElem (1 / 2) 1 (euclid (samePlace.val i) (samePlace.val j)) (![0, 1] i) (![0, 1] j)) = .ok w ∧ ∀ j, 0 < w j := by
  have hs : ∀ i j : ℕ, euclid (samePlace.val i) (samePlace.val j) = 0 := fun i j => by simp [euclid, samePlace]
  have key : ∀ dist : Fin 2 → ℝ, ∀ m, 0 < m → IsLargest dist m →
      ∃ w : Fin 2 → ℝ, (⟨2, true, .Gaussian⟩ : BandwidthWeight).weight dist = .ok w ∧ ∀ j, 0 < w j := by
    intro dist m hm hL
    rw [C04_adaptive_large .Gaussian dist 2 m (by norm_num) (by norm_num) hL]
    refine ⟨fun j => Real.exp ((dist j * dist j) / ((-2.0) * (2 / (2 : ℕ) * m * (2 / (2 : ℕ) * m)))), ?_, fun j => Real.exp_pos _⟩
    unfold BandwidthWeight.weight
    simp only [Bool.false_eq_true, if_false]
    refine kernelVec_eq_ok.2 fun j => ?_
    simp only [kernelAt, gaussianKernel]
    rw [if_neg (by push_cast; linarith)]
  fin_cases i
  · refine key _ 10000000000000 (by norm_num) ⟨⟨1, ?_⟩, fun j => ?_⟩
    · simp [stElem]
    · fin_cases j <;> simp [stElem, hs]
  · refine key _ (1 / 2) (by norm_num) ⟨⟨0, ?_⟩, fun j => ?_⟩
    · simp [stElem, hs]; norm_num
    · fin_cases j <;> simp [stElem, hs] <;> norm_num

/-- **C76 (negation).** With an adaptive bandwidth and a kernel of unbounded support the future does influence the past: two
observations at one place, at times 0 and 1, λ = 1/2, Gaussian, bandwidth 2 observations, intercept only. Changing the response at
time 1 changes the coefficient at time 0. -/
theorem C76_adaptive_uses_future (sS : Bool) : ∃ (y y' : Fin 2 → ℝ) (a a' : FitAcc 2 1), y 0 = y' 0 ∧
    gtwrFit (exST (1 / 2)) ⟨2, true, .Gaussian⟩ samePlace [0, 1] (ones 2) y sS NoStop = .ok (a, false) ∧
    gtwrFit (exST (1 / 2)) ⟨2, true, .Gaussian⟩ samePlace [0, 1] (ones 2) y' sS NoStop = .ok (a', false) ∧
    a.betas 0 0 ≠ a'.betas 0 0 := by
  have hd : STData 2 (exST (1 / 2)) samePlace := exST_data _ (Or.inr (by norm_num)) _ rfl rfl
  obtain ⟨d', h1, hdist, -⟩ := st_weights hd ![0, 1] ⟨2, true, .Gaussian⟩
  choose W hW hpos using future_weights
  have hrows : stWeightRows d' ⟨2, true, .Gaussian⟩ 2 2 = .ok W := Res.tabulate_eq_ok.2 fun i => by rw [hdist i]; exact hW i
  have hofFn : List.ofFn ![(0 : ℝ), 1] = [0, 1] := by simp [List.ofFn_succ]
  rw [hofFn] at h1
  have fit : ∀ y : Fin 2 → ℝ, ∃ a, gtwrFit (exST (1 / 2)) ⟨2, true, .Gaussian⟩ samePlace [0, 1] (ones 2) y sS NoStop = .ok (a, false) ∧
      a.betas 0 0 = (∑ l, W 0 l * y l) / ∑ l, W 0 l := by
    intro y
    obtain ⟨a, ha, hc⟩ := fit_of_posDef (ones 2) y W 0 2 sS false
      (fun i _ _ => ones_determined (fun l => (hpos i l).le) ⟨0, hpos i 0⟩)
    refine ⟨a, ?_, ?_⟩
    · unfold gtwrFit
      rw [h1, Res.bind, hrows, Res.bind, ha]
    · have e1 := (localBeta_eq_ok.1 (ones_beta (fun l => (hpos 0 l).le) ⟨0, hpos 0 0⟩ y)).2
      have e2 : a.betas 0 = _ := hc.betas 0 (Nat.zero_le _) (by norm_num)
      rw [e2]
      exact (congrFun e1 0).symm
  obtain ⟨a, ha, hb⟩ := fit ![0, 0]
  obtain ⟨a', ha', hb'⟩ := fit ![0, 1]
  refine ⟨![0, 0], ![0, 1], a, a', rfl, ha, ha', ?_⟩
  rw [hb, hb']
  simp only [Fin.sum_univ_two, cons_val_zero, cons_val_one, mul_zero, add_zero, zero_add, mul_one, zero_div]
  have h0 := hpos 0 0
  have h1 := hpos 0 1
  exact (div_pos h1 (by linarith)).ne

/-! ## Search range -/

/-- **C78 (negation).** The range of the automatic search for a fixed bandwidth does not end at the largest space-time distance
between two observations: as soon as one observation is later than another and λ < 1, it ends at the sentinel 10^13, however
close together the observations are (here: all documented distances are at most 10^13). -/
theorem C78_search_range_is_sentinel (d : CRSSTDistance) (coords : DynMat) (hd : STData n d coords) (hl : d.mLambda ≠ 1)
    (τ : Fin n → ℝ) (i j : Fin n) (hlate : τ i < τ j)
    (hsmall : ∀ i j, τ j ≤ τ i → stElem d.mLambda (stFactor d) (euclid (coords.val i) (coords.val j)) (τ i) (τ j) ≤ 10000000000000)
    (b0 : BandwidthWeight) (hfix : b0.mAdaptive = false) :
    ∃ d', gtwrBind d coords (List.ofFn τ) = .ok d' ∧ gtwrBounds d' b0 n = .ok (0, 10000000000000) := by
  obtain ⟨d', h1, hp, h2, -⟩ := st_distance hd τ
  refine ⟨d', h1, ?_⟩
  have hn0 : 0 < n := i.pos
  have htot : ∀ i ∈ List.range n, ∃ l, d'.distance i = .ok l ∧ l ≠ [] := by
    intro i hi
    refine ⟨_, h2 ⟨i, List.mem_range.1 hi⟩, ?_⟩
    intro h
    have := congrArg List.length h
    simp at this
    omega
  obtain ⟨M, hM⟩ := maxLoop_total 0 htot
  obtain ⟨m1, m2, m3⟩ := maxLoop_spec hM
  have hle : ∀ i j : Fin n, stElem d.mLambda (stFactor d) (euclid (coords.val i) (coords.val j)) (τ i) (τ j) ≤ 10000000000000 := by
    intro i j
    by_cases h : τ i < τ j
    · unfold stElem
      rw [if_neg hl, if_pos h]
    · exact hsmall i j (not_lt.1 h)
  have hval : M = 10000000000000 := by
    apply le_antisymm
    · rcases m3 with rfl | ⟨i', hi', l, hl', hm⟩
      · norm_num
      · rw [h2 ⟨i', List.mem_range.1 hi'⟩] at hl'
        rw [← Res.ok.inj hl'] at hm
        obtain ⟨j', rfl⟩ := List.mem_ofFn.1 hm
        exact hle _ _
    · obtain ⟨l, hl', -, hle'⟩ := m2 i (List.mem_range.2 i.isLt)
      rw [h2 i] at hl'
      rw [← Res.ok.inj hl'] at hle'
      refine le_trans (le_of_eq ?_) (hle' _ (List.mem_ofFn.2 ⟨j, rfl⟩))
      unfold stElem
      rw [if_neg hl, if_pos hlate]
  unfold gtwrBounds
  rw [hfix]
  simp only [Bool.false_eq_true, if_false, CRSSTDistance.maxDistance, hp, hM, Res.bind, hval]

/-- The hypotheses of C78 are met by two observations at one place, at times 0 and 1: the only other distances are 0 and 1/2. -/
example : STData 2 (exST (1 / 2)) samePlace ∧ (exST (1 / 2)).mLambda ≠ 1 ∧ (![0, 1] : Fin 2 → ℝ) 0 < ![0, 1] 1 ∧
    ∀ i j : Fin 2, (![0, 1] : Fin 2 → ℝ) j ≤ ![0, 1] i → stElem (exST (1 / 2)).mLambda (stFactor (exST (1 / 2)))
      (euclid (samePlace.val i) (samePlace.val j)) (![0, 1] i) (![0, 1] j) ≤ 1 / 2 := by
  have hs : ∀ i j : ℕ, euclid (samePlace.val i) (samePlace.val j) = 0 := fun i j => by simp [euclid, samePlace]
  refine ⟨exST_data _ (Or.inr (by norm_num)) _ rfl rfl, ?_, by simp, ?_⟩
  · show (1 / 2 : ℝ) ≠ 1
    norm_num
  · intro i j
    have e1 : (exST (1 / 2)).mLambda = 1 / 2 := rfl
    have e2 : stFactor (exST (1 / 2)) = 1 := rfl
    rw [e1, e2]
    fin_cases i <;> fin_cases j <;> simp [stElem, hs] <;> norm_num

/-! ## Prediction -/

/-- **C77 (what prediction does).** The coefficients returned for the `r`-th location are those of the `r`-th observation,
whatever the location is. With more locations than observations it throws. -/
theorem C77_prediction_is_fit_of_same_row (d : CRSSTDistance) (b : BandwidthWeight) (coords locations : DynMat)
    (hd : STData n d coords) (τ : Fin n → ℝ) (x : Matrix (Fin n) (Fin k) ℝ) (y : Fin n → ℝ) (sS : Bool) (a : FitAcc n k)
    (h : gtwrFit d b coords (List.ofFn τ) x y sS NoStop = .ok (a, false)) :
    (locations.nRows ≤ n → ∃ p, gtwrPredict d b locations coords (List.ofFn τ) x y NoStop = .ok (p, false) ∧
      ∀ (r : Fin locations.nRows) (i : Fin n), r.val = i.val → p r = a.betas i) ∧
    (n < locations.nRows → ∀ p, gtwrPredict d b locations coords (List.ofFn τ) x y NoStop ≠ .ok p) := by
  obtain ⟨d', h1, hw, hbad⟩ := st_weights hd τ b
  unfold gtwrFit at h
  rw [h1, Res.bind, Res.bind_eq_ok'] at h
  obtain ⟨W, hW, h⟩ := h
  constructor
  · intro hm
    have hrows : stWeightRows d' b n locations.nRows = .ok (fun r => W ⟨r.val, by omega⟩) :=
      Res.tabulate_eq_ok.2 fun r => Res.tabulate_eq_ok.1 hW ⟨r.val, by omega⟩
    obtain ⟨hp, hc⟩ := fitCoreSerial_ok h
    have hr : ∀ r : Fin locations.nRows, localBeta x y (W ⟨r.val, by omega⟩) = .ok (a.betas ⟨r.val, by omega⟩) := fun r =>
      localBeta_eq_ok.2 ⟨hp _ (Nat.zero_le _) (by simp; omega), hc.betas _ (Nat.zero_le _) (by simp; omega)⟩
    refine ⟨fun r => a.betas ⟨r.val, by omega⟩, ?_, fun r i hri => congrArg a.betas (Fin.ext hri)⟩
    unfold gtwrPredict
    rw [h1, Res.bind, hrows, Res.bind]
    exact rowsSerial_ok (fun _ => rfl) _ hr 0
  · intro hm p hpred
    unfold gtwrPredict at hpred
    rw [h1, Res.bind, Res.bind_eq_ok'] at hpred
    obtain ⟨W', hW', -⟩ := hpred
    have := Res.tabulate_eq_ok.1 hW' ⟨n, hm⟩
    rw [hbad n le_rfl] at this
    cases this

/-- One location, at the place of the third of three points on a line. -/
def thirdPlace : DynMat := ⟨1, 2, fun _ k => if k = 0 then 20 else 0⟩

/-- Boxcar weights of bandwidth 7 when all observations are made at the same time and λ = 1/2. -/
theorem line_st (i j : Fin 3) :
    stElem (1 / 2) 1 (euclid ((lineCoords 10).val i) ((lineCoords 10).val j)) 0 0 < 7 ↔ (i.val : ℤ) - j.val ≤ 1 ∧ (j.val : ℤ) - i.val ≤ 1 := by
  rw [line_dist]
  fin_cases i <;> fin_cases j <;> simp [stElem] <;> norm_num

/-- **C77 (negation).** Prediction does not use the location. Three points on a line, 10 apart, all at the same time, λ = 1/2,
boxcar of bandwidth 7, intercept only, response 0, 0, 1. The location asked for is the third point; the returned coefficient is
0, the one of the first point, and it is not the weighted least squares fit with the weights of that location. -/
theorem C77_prediction_ignores_location : ∃ (p : Matrix (Fin thirdPlace.nRows) (Fin 1) ℝ) (w : Fin 3 → ℝ),
    gtwrPredict (exST (1 / 2)) ⟨7, false, .Boxcar⟩ thirdPlace (lineCoords 10) [0, 0, 0] (ones 3) ![0, 0, 1] NoStop = .ok (p, false) ∧
    (⟨7, false, .Boxcar⟩ : BandwidthWeight).weight (fun j : Fin 3 =>
      stElem (1 / 2) 1 (euclid (thirdPlace.val 0) ((lineCoords 10).val j)) 0 0) = .ok w ∧
    ¬ IsWLS (ones 3) ![0, 0, 1] w (p ⟨0, Nat.one_pos⟩) := by
  have hd : STData 3 (exST (1 / 2)) (lineCoords 10) := exST_data _ (Or.inr (by norm_num)) _ rfl rfl
  obtain ⟨d', h1, hdist, -⟩ := st_weights hd ![0, 0, 0] ⟨7, false, .Boxcar⟩
  have hofFn : List.ofFn ![(0 : ℝ), 0, 0] = [0, 0, 0] := by simp [List.ofFn_succ]
  rw [hofFn] at h1
  have hw0 : stWeightVector d' ⟨7, false, .Boxcar⟩ 3 0 = .ok ![1, 1, 0] := by
    have := hdist 0
    rw [boxcar_fixed] at this
    refine this.trans ?_
    congr 1
    funext j
    have e := line_st 0 j
    have ht : ∀ j : Fin 3, (![0, 0, 0] : Fin 3 → ℝ) j = 0 := fun j => by fin_cases j <;> rfl
    have e1 : (exST (1 / 2)).mLambda = 1 / 2 := rfl
    have e2 : stFactor (exST (1 / 2)) = 1 := rfl
    simp only [ht, e1, e2]
    fin_cases j <;> simp at e ⊢ <;> linarith
  have hrows : stWeightRows d' ⟨7, false, .Boxcar⟩ 3 thirdPlace.nRows = .ok (fun _ => ![1, 1, 0]) :=
    Res.tabulate_eq_ok.2 fun r => by
      have : r.val = 0 := by have := r.isLt; simp only [thirdPlace] at this; omega
      rw [this]; exact hw0
  have hpos : ∀ l : Fin 3, (0 : ℝ) ≤ (![1, 1, 0] : Fin 3 → ℝ) l := fun l => by fin_cases l <;> simp
  have hb := ones_beta hpos ⟨0, by simp⟩ ![0, 0, 1]
  have hpred : gtwrPredict (exST (1 / 2)) ⟨7, false, .Boxcar⟩ thirdPlace (lineCoords 10) [0, 0, 0] (ones 3) ![0, 0, 1] NoStop =
      .ok (fun _ _ => (∑ l, (![1, 1, 0] : Fin 3 → ℝ) l * (![0, 0, 1] : Fin 3 → ℝ) l) / ∑ l, (![1, 1, 0] : Fin 3 → ℝ) l, false) := by
    unfold gtwrPredict
    rw [h1, Res.bind, hrows, Res.bind]
    exact rowsSerial_ok (fun _ => rfl) _ (fun _ => hb) 0
  refine ⟨_, ![0, 1, 1], hpred, ?_, ?_⟩
  · rw [boxcar_fixed]
    congr 1
    funext j
    have hv : thirdPlace.val 0 = (lineCoords 10).val 2 := by
      funext c; simp only [thirdPlace, lineCoords]; split <;> norm_num
    have e := line_st 2 j
    rw [hv]
    have e' : (lineCoords 10).val 2 = (lineCoords 10).val ((2 : Fin 3) : ℕ) := rfl
    rw [e']
    fin_cases j <;> simp at e ⊢ <;> linarith
  · intro hwls
    have := hwls (fun _ => 1 / 2) (by
      intro h
      have := congrFun h 0
      simp [Fin.sum_univ_three] at this)
    simp [wss, ones, Fin.sum_univ_three] at this
    norm_num at this

/-! ## The search for lambda stops at once if R² is the same at both ends -/

/-- Two pairs of points on a line. -/
def pairCoords : DynMat := ⟨4, 2, fun i k => if k = 0 then (if i = 0 then 0 else if i = 1 then 10 else if i = 2 then 130 else 140) else 0⟩

theorem pair_dist (l : ℝ) (i j : Fin 4) : stElem l 1 (euclid (pairCoords.val i) (pairCoords.val j)) 0 0 =
    l * |(![0, 10, 130, 140] : Fin 4 → ℝ) j - (![0, 10, 130, 140] : Fin 4 → ℝ) i| := by
  have he : euclid (pairCoords.val i) (pairCoords.val j) =
      |(![0, 10, 130, 140] : Fin 4 → ℝ) j - (![0, 10, 130, 140] : Fin 4 → ℝ) i| := by
    unfold euclid pairCoords
    simp only [if_true, one_ne_zero, if_false, sub_self, mul_zero, add_zero]
    rw [Real.sqrt_mul_self_eq_abs]
    fin_cases i <;> fin_cases j <;> simp
  rw [he]
  unfold stElem
  split
  · rename_i h; rw [h, one_mul]
  · simp

/-- R² of the model with an intercept only: local means against the overall variation. -/
theorem pair_rsquare (l0 l : ℝ) (h01 : 0 ≤ l ∧ l ≤ 1) (hl : l = 1 ∨ ¬ |l - 1| < 1e-16) (W : Fin 4 → Fin 4 → ℝ)
    (hW : ∀ i j, W i j = if l * |(![0, 10, 130, 140] : Fin 4 → ℝ) j - (![0, 10, 130, 140] : Fin 4 → ℝ) i| < 75 then 1 else 0) :
    rsquareByLambda (exST l0) ⟨75, false, .Boxcar⟩ pairCoords [0, 0, 0, 0] (ones 4) ![1, -1, -1, 1] NoStop l =
      .ok (false, some (1 - (∑ i, ((![1, -1, -1, 1] : Fin 4 → ℝ) i -
        (∑ j, W i j * (![1, -1, -1, 1] : Fin 4 → ℝ) j) / ∑ j, W i j) ^ 2) / 4)) := by
  have hset := (C12_setLambda (exST l0) l).1 h01
  have hd : STData 4 (exST l) pairCoords := exST_data _ hl _ rfl rfl
  obtain ⟨d', h1, hdist, -⟩ := st_weights hd ![0, 0, 0, 0] ⟨75, false, .Boxcar⟩
  have hofFn : List.ofFn ![(0 : ℝ), 0, 0, 0] = [0, 0, 0, 0] := by simp [List.ofFn_succ]
  rw [hofFn] at h1
  have hrows : stWeightRows d' ⟨75, false, .Boxcar⟩ 4 4 = .ok W := Res.tabulate_eq_ok.2 fun i => by
    rw [hdist i, boxcar_fixed]
    congr 1
    funext j
    have ht : ∀ j : Fin 4, (![0, 0, 0, 0] : Fin 4 → ℝ) j = 0 := fun j => by fin_cases j <;> rfl
    have e1 : (exST l).mLambda = l := rfl
    have e2 : stFactor (exST l) = 1 := rfl
    rw [hW]
    simp only [ht, e1, e2, pair_dist]
  have hnn : ∀ i j, 0 ≤ W i j := fun i j => by rw [hW]; split <;> norm_num
  have hii : ∀ i, 0 < W i i := fun i => by rw [hW]; simp
  have hb : ∀ i, localBeta (ones 4) ![1, -1, -1, 1] (W i) = .ok (fun _ => (∑ j, W i j * (![1, -1, -1, 1] : Fin 4 → ℝ) j) / ∑ j, W i j) :=
    fun i => ones_beta (hnn i) ⟨i, hii i⟩ _
  have hpred : predictSerial (ones 4) ![1, -1, -1, 1] W NoStop =
      .ok (fun i _ => (∑ j, W i j * (![1, -1, -1, 1] : Fin 4 → ℝ) j) / ∑ j, W i j, false) := rowsSerial_ok (fun _ => rfl) _ hb 0
  have hy : ∑ i, ((![1, -1, -1, 1] : Fin 4 → ℝ) i - meanVec ![1, -1, -1, 1]) * ((![1, -1, -1, 1] : Fin 4 → ℝ) i - meanVec ![1, -1, -1, 1]) = 4 := by
    simp [meanVec, Fin.sum_univ_four]
    norm_num
  have hrss : rss (ones 4) ![1, -1, -1, 1] (fun i _ => (∑ j, W i j * (![1, -1, -1, 1] : Fin 4 → ℝ) j) / ∑ j, W i j) =
      ∑ i, ((![1, -1, -1, 1] : Fin 4 → ℝ) i - (∑ j, W i j * (![1, -1, -1, 1] : Fin 4 → ℝ) j) / ∑ j, W i j) ^ 2 := by
    unfold rss fitted
    refine Finset.sum_congr rfl fun i _ => ?_
    simp only [ones, Finset.univ_unique, Fin.default_eq_zero, Finset.sum_singleton, mul_one]
    ring
  unfold rsquareByLambda
  rw [hset]
  have hd1 : ({ exST l0 with mLambda := l } : CRSSTDistance) = exST l := rfl
  simp only [hd1]
  rw [h1, Res.bind, hrows, Res.bind, hpred, Res.bind]
  simp only [Bool.false_eq_true, if_false, fdiv, hy, OfNat.ofNat_ne_zero, Res.bind, Res.toOption, hrss]

theorem pair_low (l0 l : ℝ) (h : (0 ≤ l ∧ l ≤ 1 / 2) ∨ l = 1) :
    rsquareByLambda (exST l0) ⟨75, false, .Boxcar⟩ pairCoords [0, 0, 0, 0] (ones 4) ![1, -1, -1, 1] NoStop l = .ok (false, some 0) := by
  rcases h with h | rfl
  · rw [pair_rsquare l0 l ⟨h.1, by linarith⟩ (Or.inr (by rw [abs_lt]; push Not; intro; norm_num at *; linarith)) (fun _ _ => 1)]
    · simp [Fin.sum_univ_four] <;> norm_num
    · intro i j
      rw [if_pos]
      have : |(![0, 10, 130, 140] : Fin 4 → ℝ) j - (![0, 10, 130, 140] : Fin 4 → ℝ) i| ≤ 140 := by
        fin_cases i <;> fin_cases j <;> norm_num
      nlinarith
  · rw [pair_rsquare l0 1 ⟨by norm_num, le_rfl⟩ (Or.inl rfl) !![1, 1, 0, 0; 1, 1, 0, 0; 0, 0, 1, 1; 0, 0, 1, 1]]
    · simp [Fin.sum_univ_four] <;> norm_num
    · intro i j
      fin_cases i <;> fin_cases j <;> simp <;> norm_num

theorem pair_high (l0 : ℝ) :
    rsquareByLambda (exST l0) ⟨75, false, .Boxcar⟩ pairCoords [0, 0, 0, 0] (ones 4) ![1, -1, -1, 1] NoStop lambdaRatio =
      .ok (false, some (5 / 18)) := by
  have r1 := ratio_gt
  have r2 := ratio_lt
  rw [pair_rsquare l0 lambdaRatio ⟨by linarith, by linarith⟩ (Or.inr (by rw [abs_lt]; push Not; intro; norm_num at *; linarith))
    !![1, 1, 0, 0; 1, 1, 1, 0; 0, 1, 1, 1; 0, 0, 1, 1]]
  · simp [Fin.sum_univ_four] <;> norm_num
  · intro i j
    fin_cases i <;> fin_cases j <;> simp <;> norm_num <;> linarith

/-- **C74 (negation).** Data on which the selected lambda is worse than one that was tried. Two pairs of points on a line, all
observed at the same time, boxcar of bandwidth 75, intercept only. R² is 0 for λ = 0 and for λ = 1; because the two agree the
search stops before its first round and returns 1/2, where R² is 0, although at the λ ≈ 0.618 it had tried R² is 5/18. -/
theorem C74_equal_ends_stop (l0 : ℝ) : ∃ s,
    lambdaAutoSelection (fun _ l => rsquareByLambda (exST l0) ⟨75, false, .Boxcar⟩ pairCoords [0, 0, 0, 0] (ones 4) ![1, -1, -1, 1]
      NoStop l) = .ok (1 / 2, s) ∧
    rsquareByLambda (exST l0) ⟨75, false, .Boxcar⟩ pairCoords [0, 0, 0, 0] (ones 4) ![1, -1, -1, 1] NoStop (1 / 2) =
      .ok (false, some 0) ∧
    ∃ l ∈ s.evals, rsquareByLambda (exST l0) ⟨75, false, .Boxcar⟩ pairCoords [0, 0, 0, 0] (ones 4) ![1, -1, -1, 1] NoStop l =
      .ok (false, some (5 / 18)) := by
  have r1 := ratio_gt
  have r2 := ratio_lt
  have ha := pair_low l0 0 (Or.inl ⟨le_rfl, by norm_num⟩)
  have hb := pair_low l0 1 (Or.inr rfl)
  have hp := pair_low l0 (1 - lambdaRatio) (Or.inl ⟨by linarith, by linarith⟩)
  have hh := pair_high l0
  unfold lambdaAutoSelection lambdaInit
  simp only [mul_one, ha, hb, hp, hh, Res.bind]
  rw [lambdaLoop, if_neg (by
    rintro ⟨-, h⟩
    have h : |(0 : ℝ) - 0| ≥ 1e-12 := h
    norm_num at h)]
  simp only [Bool.not_false, Bool.and_self, if_true, add_zero]
  refine ⟨_, rfl, pair_low l0 (1 / 2) (Or.inl ⟨by norm_num, le_rfl⟩), lambdaRatio, by simp, hh⟩

/-- The hypotheses of C44 and C74 are met: `λ ↦ -(λ - 1/5)²` has a single peak and the search returns. -/
example : UnimodalAt (fun l => -(l - 1 / 5) ^ 2) (1 / 5) ∧
    ∃ l s, lambdaAutoSelection (fun _ l => .ok (false, some (-(l - 1 / 5) ^ 2))) = .ok (l, s) := by
  refine ⟨⟨by norm_num, by norm_num, ?_, ?_⟩, C44_search_ends _ fun j l => ⟨_, rfl⟩⟩
  · intro a ha b hb hab
    have := hb.2
    simp only
    nlinarith
  · intro a ha b hb hab
    have := ha.1
    simp only
    nlinarith

end Verif.Props

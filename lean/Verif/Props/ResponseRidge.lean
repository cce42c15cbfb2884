import Verif.Props.ResponseChange
import Verif.Props.ReorderingMore

/-! # C146: ridge regression under a change of the unit of the response, and under known linear effects -/

namespace Verif.Props
open Verif Verif.Model Verif.Spec Matrix Classical

variable {n k m : ℕ}

/-! ### One location -/

theorem stddev_scale (a : ℝ) (v : Fin n → ℝ) : stddev (fun l => a * v l) = |a| * stddev v := by
  unfold stddev
  split
  · rw [mul_zero]
  · have hm : meanVec (fun l => a * v l) = a * meanVec v := by
      unfold meanVec
      rw [← Finset.mul_sum, mul_div_assoc]
    rw [hm, ← Real.sqrt_sq_eq_abs, ← Real.sqrt_mul (sq_nonneg a), ← mul_div_assoc, Finset.mul_sum]
    congr 2
    exact Finset.sum_congr rfl fun l _ => by ring

theorem ridgelm_scale {x : Matrix (Fin n) (Fin k) ℝ} {y w : Fin n → ℝ} {lam a : ℝ} (ha : a ≠ 0) {b : Fin k → ℝ} (h : ridgelm x y w lam = .ok b) :
    ridgelm x (fun l => a * y l) w lam = .ok fun j => a * b j := by
  have hs : stddev (fun l => a * y l * Real.sqrt (w l)) = |a| * stddev fun l => y l * Real.sqrt (w l) := by
    rw [← stddev_scale]
    congr 1
    funext l
    ring
  unfold ridgelm at h ⊢
  split at h
  · cases h
  rename_i hk
  rw [if_neg hk]
  split at h
  · cases h
  rename_i hw
  rw [if_neg hw]
  split at h
  · cases h
  rename_i hc
  rw [if_neg hc]
  simp only at h ⊢
  split at h
  · cases h
  rename_i hy
  rw [hs, if_neg (mul_ne_zero (abs_ne_zero.2 ha) hy)]
  obtain ⟨inv, hi, h⟩ := Res.bind_eq_ok'.1 h
  rw [hi]
  simp only [Res.bind]
  rw [← Res.ok.inj h]
  congr 1
  funext j
  set sd := stddev fun l => y l * Real.sqrt (w l)
  have e : (fun l => a * y l * Real.sqrt (w l) / (|a| * sd)) = (a / |a|) • fun l => y l * Real.sqrt (w l) / sd := by
    funext l
    simp only [Pi.smul_apply, smul_eq_mul]
    have := abs_ne_zero.2 ha
    field_simp
  rw [e, mulVec_smul, mulVec_smul, Pi.smul_apply, smul_eq_mul]
  have := abs_ne_zero.2 ha
  field_simp

theorem lcrBeta_scale {sv : Matrix (Fin n) (Fin k) ℝ → ℝ × ℝ} {cfg : LcrCfg} {x : Matrix (Fin n) (Fin k) ℝ} {y w : Fin n → ℝ} {a : ℝ} (ha : a ≠ 0)
    {b : Fin k → ℝ} (h : lcrBeta sv cfg x y w = .ok b) : lcrBeta sv cfg x (fun l => a * y l) w = .ok fun j => a * b j := by
  unfold lcrBeta at h ⊢
  split at h
  · cases h
  rename_i hk
  rw [if_neg hk]
  obtain ⟨z, hz, h⟩ := Res.bind_eq_ok'.1 h
  rw [hz]
  simp only [Res.bind]
  split at h
  · cases h
  rename_i hn
  rw [if_neg hn]
  obtain ⟨lam, hl, h⟩ := Res.bind_eq_ok'.1 h
  rw [hl]
  exact ridgelm_scale ha h

/-! ### Whole runs -/

/-- How a ridge fit of the response in another unit is to be obtained from the one in the old unit. -/
structure RidgeRescaled (a : ℝ) (r r' : LcrResult n k) : Prop where
  betas : ∀ i j, r'.betas i j = a * r.betas i j
  diagnostic : ∃ D D', r.diagnostic = some D ∧ r'.diagnostic = some D' ∧ D'.RSS = a ^ 2 * D.RSS ∧ D'.ENP = D.ENP ∧ D'.EDF = D.EDF ∧
    (∀ v, D.AIC = .ok v → D'.AIC = .ok (v + n * Real.log (a ^ 2))) ∧ (∀ v, D.AICc = .ok v → D'.AICc = .ok (v + n * Real.log (a ^ 2))) ∧
    D'.RSquare = D.RSquare ∧ D'.RSquareAdjust = D.RSquareAdjust

theorem scaled_eq_changed (x : Matrix (Fin n) (Fin k) ℝ) (a : ℝ) (y : Fin n → ℝ) : (fun i => a * y i) = changedResponse x a 0 y := by
  funext i
  simp [changedResponse]

theorem lcrDiagnostic_scale {x : Matrix (Fin n) (Fin k) ℝ} {y : Fin n → ℝ} {a : ℝ} (ha : a ≠ 0) {B B' : Matrix (Fin n) (Fin k) ℝ}
    (hB : ∀ i j, B' i j = a * B i j) (tr : Fin 2 → ℝ) :
    let D := lcrDiagnostic x y B tr
    let D' := lcrDiagnostic x (fun i => a * y i) B' tr
    D'.RSS = a ^ 2 * D.RSS ∧ D'.ENP = D.ENP ∧ D'.EDF = D.EDF ∧
      (∀ v, D.AIC = .ok v → D'.AIC = .ok (v + n * Real.log (a ^ 2))) ∧ (∀ v, D.AICc = .ok v → D'.AICc = .ok (v + n * Real.log (a ^ 2))) ∧
      D'.RSquare = D.RSquare ∧ D'.RSquareAdjust = D.RSquareAdjust := by
  intro D D'
  have h2 : a ^ 2 ≠ 0 := pow_ne_zero _ ha
  have hR : rss x (fun i => a * y i) B' = a ^ 2 * rss x y B := by
    rw [scaled_eq_changed x]
    exact rss_changed fun i j => by rw [hB]; simp
  have hT : ∑ i, (a * y i - meanVec fun i => a * y i) * (a * y i - meanVec fun i => a * y i) =
      a ^ 2 * ∑ i, (y i - meanVec y) * (y i - meanVec y) := by
    have := total_changed (x := x) (y := y) (a := a) (γ := 0) (c := 0) fun i => by simp
    rwa [← scaled_eq_changed x] at this
  have hlg : ∀ l, ((fdiv (rss x y B) (n - (2 * tr 0 - tr 1))).bind fun s2 => flog (2 * Real.pi * s2)) = .ok l →
      ((fdiv (a ^ 2 * rss x y B) (n - (2 * tr 0 - tr 1))).bind fun s2 => flog (2 * Real.pi * s2)) = .ok (l + Real.log (a ^ 2)) := by
    intro l hl
    obtain ⟨q, hq, hl⟩ := Res.bind_eq_ok'.1 hl
    obtain ⟨hd, rfl⟩ := fdiv_ok_iff hq
    obtain ⟨hp, rfl⟩ := flog_ok_pos hl
    rw [show fdiv (a ^ 2 * rss x y B) (n - (2 * tr 0 - tr 1)) = .ok (a ^ 2 * (rss x y B / (n - (2 * tr 0 - tr 1)))) from by
      rw [← mul_div_assoc]; exact if_neg hd]
    simp only [Res.bind]
    have h3 : 0 < a ^ 2 := by positivity
    rw [show 2 * Real.pi * (a ^ 2 * (rss x y B / (n - (2 * tr 0 - tr 1)))) = a ^ 2 * (2 * Real.pi * (rss x y B / (n - (2 * tr 0 - tr 1)))) from by ring]
    unfold flog
    rw [if_neg (not_le.2 (mul_pos h3 hp)), Real.log_mul h2 hp.ne', add_comm]
  refine ⟨hR, rfl, rfl, fun v hv => ?_, fun v hv => ?_, ?_, ?_⟩
  · simp only [D, lcrDiagnostic] at hv
    obtain ⟨l, hl, hv⟩ := Res.bind_eq_ok'.1 hv
    simp only [D', lcrDiagnostic, hR]
    rw [hlg l hl]
    simp only [Res.bind]
    rw [← Res.ok.inj hv]
    congr 1; ring
  · simp only [D, lcrDiagnostic] at hv
    obtain ⟨l, hl, hv⟩ := Res.bind_eq_ok'.1 hv
    obtain ⟨q1, h1, hv⟩ := Res.bind_eq_ok'.1 hv
    obtain ⟨q2, h2, hv⟩ := Res.bind_eq_ok'.1 hv
    obtain ⟨q, hq, hv⟩ := Res.bind_eq_ok'.1 hv
    simp only [D', lcrDiagnostic, hR]
    rw [hlg l hl]
    simp only [Res.bind, h1, h2, hq]
    rw [← Res.ok.inj hv]
    congr 1; ring
  · simp only [D, D', lcrDiagnostic, hR, hT, fdiv_scale h2]
  · simp only [D, D', lcrDiagnostic, hR, hT, fdiv_scale h2]

theorem lcrFit_scale {sv : Matrix (Fin n) (Fin k) ℝ → ℝ × ℝ} {cfg : LcrCfg} {x : Matrix (Fin n) (Fin k) ℝ} {y : Fin n → ℝ}
    {W : Fin n → Fin n → ℝ} {a : ℝ} (ha : a ≠ 0) {r : LcrResult n k} (h : lcrFit (lcrFitSerial sv cfg x y W NoStop) x y 0 = .ok r) :
    ∃ r', lcrFit (lcrFitSerial sv cfg x (fun l => a * y l) W NoStop) x (fun l => a * y l) 0 = .ok r' ∧ RidgeRescaled a r r' := by
  obtain ⟨h1, H, h2, h3⟩ := lcrFit_ok h
  have b : ∀ i, lcrBeta sv cfg x (fun l => a * y l) (W i) = .ok fun j => a * r.betas i j := fun i => lcrBeta_scale ha (h1 i)
  have hl : ∀ i ∈ List.finRange n, lcrLocal sv cfg x (fun l => a * y l) W i = .ok (fun j => a * r.betas i j, H i) := fun i _ => by
    simp only [lcrLocal, b, h2, Res.bind]
  have hs : lcrFitSerial sv cfg x (fun l => a * y l) W NoStop 0 = _ := serialFor_ok _ _ 0 _ (fun _ _ => rfl) hl
  have hf : ∃ r', lcrFit (lcrFitSerial sv cfg x (fun l => a * y l) W NoStop) x (fun l => a * y l) 0 = .ok r' := by
    unfold lcrFit
    rw [hs]
    exact ⟨_, rfl⟩
  obtain ⟨r', hr'⟩ := hf
  obtain ⟨g1, H', g2, g3⟩ := lcrFit_ok hr'
  have eb : ∀ i, r'.betas i = fun j => a * r.betas i j := fun i => Res.ok.inj ((g1 i).symm.trans (b i))
  have eH : H' = H := funext fun i => Res.ok.inj ((g2 i).symm.trans (h2 i))
  subst eH
  exact ⟨r', hr', fun i j => by rw [eb], _, _, h3, g3, lcrDiagnostic_scale ha (fun i j => by rw [eb]) _⟩

/-- **C146 (unit of the response).** A ridge regression whose response is given in another unit completes whenever the one in the old unit does, in any
mode, whether or not the ridge parameter is adjusted: coefficients and residuals are in the new unit, and everything without a unit stays. -/
theorem C146_unit (sv : Matrix (Fin n) (Fin k) ℝ → ℝ × ℝ) (cfg : LcrCfg) (ex ex' : Exec n) (hex : ex.Valid) (hex' : ex'.Valid) (d : CRSDistance)
    (b : BandwidthWeight) (coords : DynMat) (x : Matrix (Fin n) (Fin k) ℝ) (y : Fin n → ℝ) (a : ℝ) (ha : a ≠ 0) (r : LcrResult n k)
    (h : lcrRunIn sv cfg ex d b coords x y = .ok r) :
    ∃ r', lcrRunIn sv cfg ex' d b coords x (fun l => a * y l) = .ok r' ∧ RidgeRescaled a r r' := by
  have h := ((C103_modes_agree sv cfg (fun _ => .serial) (fun _ => trivial) ex hex d b coords x y).1 r).1 h
  unfold lcrRun at h
  obtain ⟨d', hd, h⟩ := Res.bind_eq_ok'.1 h
  obtain ⟨W, hW, h⟩ := Res.bind_eq_ok'.1 h
  obtain ⟨r', h', hr⟩ := lcrFit_scale ha h
  refine ⟨r', ((C103_modes_agree sv cfg (fun _ => .serial) (fun _ => trivial) ex' hex' d b coords x _).1 r').2 ?_, hr⟩
  unfold lcrRun
  rw [hd]
  simp only [Res.bind, hW]
  exact h'

/-- **C146 (unit of the response, prediction).** The same for the coefficients at other places (serial mode). -/
theorem C146_unit_prediction (sv : Matrix (Fin n) (Fin k) ℝ → ℝ × ℝ) (cfg : LcrCfg) (d : CRSDistance) (b : BandwidthWeight) (places coords : DynMat)
    (x : Matrix (Fin n) (Fin k) ℝ) (y : Fin n → ℝ) (a : ℝ) (ha : a ≠ 0) (B : Matrix (Fin m) (Fin k) ℝ) (t : Bool)
    (h : lcrPredictRun sv cfg d b places coords m x y = .ok (B, t)) :
    lcrPredictRun sv cfg d b places coords m x (fun l => a * y l) = .ok (Matrix.of fun i j => a * B i j, t) := by
  unfold lcrPredictRun at h ⊢
  obtain ⟨d', hd, h⟩ := Res.bind_eq_ok'.1 h
  obtain ⟨W, hW, h⟩ := Res.bind_eq_ok'.1 h
  rw [hd]
  simp only [Res.bind, hW]
  unfold lcrPredictSerial at h ⊢
  have ht : t = false := serialFor_nostop _ _ _ h
  subst ht
  have hb := (betaLoop_ok (List.nodup_finRange m) h).1
  have hs : serialFor (fun i => lcrBeta sv cfg x (fun l => a * y l) (W i)) setRow NoStop (List.finRange m) 0 (0 : Matrix (Fin m) (Fin k) ℝ) = _ :=
    serialFor_ok _ _ 0 _ (fun _ _ => rfl) fun i hi => lcrBeta_scale ha (hb i hi)
  have hb' := (betaLoop_ok (List.nodup_finRange m) hs).1
  refine hs.trans (congrArg (fun z => Res.ok (z, false)) ?_)
  funext i
  exact Res.ok.inj ((hb' i (List.mem_finRange _)).symm.trans (lcrBeta_scale ha (hb i (List.mem_finRange _))))

/-! ### Known effects -/

theorem ridgelm_effect {x : Matrix (Fin n) (Fin k) ℝ} {y w : Fin n → ℝ} {lam : ℝ} (hl : lam ≠ 0) {γ : Fin k → ℝ} (hγ : γ ≠ 0) {b b' : Fin k → ℝ}
    (h : ridgelm x y w lam = .ok b) (h' : ridgelm x (changedResponse x 1 γ y) w lam = .ok b') : b' ≠ b + γ := by
  rintro rfl
  obtain ⟨-, -, hs, -, e⟩ := ridgelm_cases h
  obtain ⟨-, -, -, -, e'⟩ := ridgelm_cases h'
  rw [changed_eq, one_smul, mulVec_add, mulVec_add, e, mulVec_mulVec, show xtw x w * x = xtwx x w from rfl] at e'
  have e' := add_left_cancel e'
  refine hγ (funext fun j => ?_)
  have := congrFun e' j
  rw [ridgeGram_mulVec] at this
  have h0 : lam * ridgeScale x j ^ 2 * γ j = 0 := by linarith
  rcases mul_eq_zero.1 h0 with h1 | h1
  · exact absurd h1 (mul_ne_zero hl (pow_ne_zero _ (hs j)))
  · exact h1

theorem ridgelm_of_lcrBeta {sv : Matrix (Fin n) (Fin k) ℝ → ℝ × ℝ} {lam thresh : ℝ} {x : Matrix (Fin n) (Fin k) ℝ} {y w : Fin n → ℝ} {c : Fin k → ℝ}
    (hc : lcrBeta sv ⟨lam, false, thresh⟩ x y w = .ok c) : ridgelm x y w lam = .ok c := by
  unfold lcrBeta at hc
  split at hc
  · cases hc
  obtain ⟨z, -, hc⟩ := Res.bind_eq_ok'.1 hc
  split at hc
  · cases hc
  obtain ⟨l, h1, hc⟩ := Res.bind_eq_ok'.1 hc
  rw [lcrLambda, if_neg (by simp)] at h1
  cases h1
  exact hc

theorem ridgelm_effect_zero {x : Matrix (Fin n) (Fin k) ℝ} {y w : Fin n → ℝ} {a : ℝ} {γ : Fin k → ℝ} {b b' : Fin k → ℝ}
    (h : ridgelm x y w 0 = .ok b) (h' : ridgelm x (changedResponse x a γ y) w 0 = .ok b') : b' = a • b + γ := by
  obtain ⟨-, -, hs, hu, e⟩ := ridgelm_cases h
  obtain ⟨-, -, -, -, e'⟩ := ridgelm_cases h'
  refine (mulVec_injective_iff_isUnit.2 ((isUnit_iff_isUnit_det _).2 hu)) ?_
  show _ *ᵥ b' = _ *ᵥ (a • b + γ)
  rw [e', changed_eq, mulVec_add, mulVec_add, mulVec_smul, mulVec_smul, e, mulVec_mulVec, show xtw x w * x = xtwx x w from rfl]
  congr 1
  funext j
  rw [ridgeGram_mulVec]
  ring

/-- **C146 (known effects, no ridge term).** With ridge parameter 0 the coefficients do follow a change of the response to `a y + x γ`, at every location,
if both runs complete. -/
theorem C146_effect_without_ridge (sv : Matrix (Fin n) (Fin k) ℝ → ℝ × ℝ) (thresh : ℝ) (ex ex' : Exec n) (hex : ex.Valid) (hex' : ex'.Valid)
    (d : CRSDistance) (b : BandwidthWeight) (coords : DynMat) (x : Matrix (Fin n) (Fin k) ℝ) (y : Fin n → ℝ) (a : ℝ) (γ : Fin k → ℝ)
    (r r' : LcrResult n k) (h : lcrRunIn sv ⟨0, false, thresh⟩ ex d b coords x y = .ok r)
    (h' : lcrRunIn sv ⟨0, false, thresh⟩ ex' d b coords x (changedResponse x a γ y) = .ok r') (i : Fin n) (j : Fin k) :
    r'.betas i j = a * r.betas i j + γ j := by
  have h := ((C103_modes_agree sv ⟨0, false, thresh⟩ (fun _ => .serial) (fun _ => trivial) ex hex d b coords x y).1 r).1 h
  have h' := ((C103_modes_agree sv ⟨0, false, thresh⟩ (fun _ => .serial) (fun _ => trivial) ex' hex' d b coords x _).1 r').1 h'
  unfold lcrRun at h h'
  obtain ⟨d1, hd, h⟩ := Res.bind_eq_ok'.1 h
  obtain ⟨W, hW, h⟩ := Res.bind_eq_ok'.1 h
  rw [hd] at h'
  simp only [Res.bind, hW] at h'
  exact congrFun (ridgelm_effect_zero (ridgelm_of_lcrBeta ((lcrFit_ok h).1 i)) (ridgelm_of_lcrBeta ((lcrFit_ok h').1 i))) j

/-- **C146 (known effects) fails:** with a given ridge parameter that is not 0, a known linear effect `x γ` added to the response (such as a constant)
is never found again in the coefficients, at no location: the intercept is shrunk like every other coefficient. -/
theorem C146_effect_fails (sv : Matrix (Fin n) (Fin k) ℝ → ℝ × ℝ) (lam thresh : ℝ) (hl : lam ≠ 0) (ex ex' : Exec n) (hex : ex.Valid) (hex' : ex'.Valid)
    (d : CRSDistance) (b : BandwidthWeight) (coords : DynMat) (x : Matrix (Fin n) (Fin k) ℝ) (y : Fin n → ℝ) (γ : Fin k → ℝ) (hγ : γ ≠ 0)
    (r r' : LcrResult n k) (h : lcrRunIn sv ⟨lam, false, thresh⟩ ex d b coords x y = .ok r)
    (h' : lcrRunIn sv ⟨lam, false, thresh⟩ ex' d b coords x (changedResponse x 1 γ y) = .ok r') (i : Fin n) : r'.betas i ≠ r.betas i + γ := by
  have h := ((C103_modes_agree sv ⟨lam, false, thresh⟩ (fun _ => .serial) (fun _ => trivial) ex hex d b coords x y).1 r).1 h
  have h' := ((C103_modes_agree sv ⟨lam, false, thresh⟩ (fun _ => .serial) (fun _ => trivial) ex' hex' d b coords x _).1 r').1 h'
  unfold lcrRun at h h'
  obtain ⟨d1, hd, h⟩ := Res.bind_eq_ok'.1 h
  obtain ⟨W, hW, h⟩ := Res.bind_eq_ok'.1 h
  rw [hd] at h'
  simp only [Res.bind, hW] at h'
  exact ridgelm_effect hl hγ (ridgelm_of_lcrBeta ((lcrFit_ok h).1 i)) (ridgelm_of_lcrBeta ((lcrFit_ok h').1 i))

/-! ### Runs to which the theorems apply -/

theorem zero_ridge_pos (y w : Fin 3 → ℝ) (hw : ∀ l, 0 < w l) (h0 : y 0 = 0) (h1 : y 1 ≠ 0) : ∃ b, ridgelm exX y w 0 = .ok b := by
  unfold ridgelm
  rw [if_neg (by norm_num), if_neg (by push Not; exact fun l => (hw l).le), if_neg (by push Not; exact exX_scale)]
  dsimp only
  rw [if_neg (stddev_ne_zero (a := 0) (b := 1) (by
    rw [h0, zero_mul]
    exact (mul_ne_zero h1 (Real.sqrt_pos.2 (hw 1)).ne').symm))]
  have hp : IsUnit ((Matrix.of fun l j => exX l j * Real.sqrt (w l) / ridgeScale exX j)ᵀ *
      (Matrix.of fun l j => exX l j * Real.sqrt (w l) / ridgeScale exX j) + (0 : ℝ) • (1 : Matrix (Fin 2) (Fin 2) ℝ)).det := by
    rw [zero_smul, add_zero]
    refine (isUnit_iff_isUnit_det _).1 (Matrix.PosDef.isUnit ?_)
    rw [← Matrix.conjTranspose_eq_transpose_of_trivial]
    refine Matrix.PosDef.conjTranspose_mul_self _ fun a b hab => ?_
    have e0 := congrFun hab 0
    have e1 := congrFun hab 1
    have s0 : ridgeScale exX 0 = 1 := by simp [ridgeScale]
    have s1 := exX_scale 1
    have w0 := (Real.sqrt_pos.2 (hw 0)).ne'
    have w1 := (Real.sqrt_pos.2 (hw 1)).ne'
    simp only [mulVec, dotProduct, of_apply, Fin.sum_univ_two, s0] at e0 e1
    generalize ridgeScale exX 1 = s at e0 e1 s1
    have f0 : a 0 = b 0 := by simpa [exX, w0] using e0
    rw [f0] at e1
    have f1 : a 1 = b 1 := mul_left_cancel₀ (show exX 1 1 * Real.sqrt (w 1) / s ≠ 0 from div_ne_zero (mul_ne_zero (by simp [exX]) w1) s1)
      (add_left_cancel e1)
    funext j
    fin_cases j
    · exact f0
    · exact f1
  simp only [invGeneral, hp, if_true, Res.bind]
  exact ⟨_, rfl⟩

theorem ridge_line_run (sv : Matrix (Fin 3) (Fin 2) ℝ → ℝ × ℝ) {lam : ℝ} (hl : 0 ≤ lam) (y : Fin 3 → ℝ) (h0 : y 0 = 0) (h1 : y 1 ≠ 0) :
    ∃ r, lcrRunIn sv ⟨lam, false, 30⟩ .serial ⟨false, none⟩ ⟨1, false, .Gaussian⟩ (lineCoords 2) exX y = .ok r := by
  have hW : weightRows ⟨false, some (lineCoords 2, lineCoords 2)⟩ ⟨1, false, .Gaussian⟩ 3 3 =
      .ok (fun i l : Fin 3 => kernelFormula .Gaussian 1 (plane ((lineCoords 2).val i) ((lineCoords 2).val l))) :=
    (weights_fixed one_pos).2 fun i => ⟨i.isLt, rfl, rfl⟩
  set W := fun i l : Fin 3 => kernelFormula .Gaussian 1 (plane ((lineCoords 2).val i) ((lineCoords 2).val l))
  have hpos : ∀ i l, 0 < W i l := fun i l => Real.exp_pos _
  have hrow : ∀ i, ∃ r, lcrLocal sv ⟨lam, false, 30⟩ exX y W i = .ok r := by
    intro i
    have hp := (gram_posDef_iff_determined exX _ fun l => (hpos i l).le).2 (exX_determined _ (hpos i))
    obtain ⟨b, hb⟩ : ∃ b, ridgelm exX y (W i) lam = .ok b := by
      rcases hl.lt_or_eq with hl | rfl
      · exact C70_exists exX y (W i) hl le_rfl (fun l => (hpos i l).le) exX_scale
          (stddev_ne_zero (a := 0) (b := 1) (by
            rw [h0, zero_mul]
            exact (mul_ne_zero h1 (Real.sqrt_pos.2 (hpos i 1)).ne').symm))
      · exact zero_ridge_pos y (W i) (hpos i) h0 h1
    have hb1 : lcrBeta sv ⟨lam, false, 30⟩ exX y (W i) = .ok b := by
      unfold lcrBeta lcrScaled
      rw [if_neg (by norm_num), if_neg (by push Not; exact exX_column (hpos i))]
      simp only [Res.bind, lcrLambda, Bool.false_eq_true, false_and, if_false, hb]
      rw [if_neg (by norm_num)]
    have hu : IsUnit (xtwx exX (W i)).det := (isUnit_iff_isUnit_det _).1 hp.isUnit
    unfold lcrLocal
    rw [hb1]
    simp only [Res.bind, lcrHatRow, invGeneral, hu, if_true]
    exact ⟨_, rfl⟩
  choose f hf using hrow
  have hq : lcrFitSerial sv ⟨lam, false, 30⟩ exX y W NoStop 0 = _ := serialFor_ok f _ _ _ (fun _ _ => rfl) fun i _ => hf i
  obtain ⟨r, hr⟩ : ∃ r, lcrRun sv ⟨lam, false, 30⟩ ⟨false, none⟩ ⟨1, false, .Gaussian⟩ (lineCoords 2) exX y = .ok r := by
    unfold lcrRun
    rw [bindLocations_eq_ok.2 ⟨rfl, rfl, rfl⟩, Res.bind]
    simp only
    rw [hW]
    simp only [Res.bind, lcrFit]
    rw [show (fun _ : ℕ => false) = NoStop from rfl, hq]
    exact ⟨_, rfl⟩
  exact ⟨r, ((C103_modes_agree sv ⟨lam, false, 30⟩ (fun _ => .serial) (fun _ => trivial) .serial trivial _ _ _ _ _).1 r).2 hr⟩

/-- C146, unit: three points on a line, the response in thousandths, serially and with three threads. -/
example (sv : Matrix (Fin 3) (Fin 2) ℝ → ℝ × ℝ) : ∃ r r',
    lcrRunIn sv ⟨1, false, 30⟩ .serial ⟨false, none⟩ ⟨1, false, .Gaussian⟩ (lineCoords 2) exX ![0, 1, 4] = .ok r ∧
    lcrRunIn sv ⟨1, false, 30⟩ (moreThreads 3) ⟨false, none⟩ ⟨1, false, .Gaussian⟩ (lineCoords 2) exX (fun l => 1000 * ![0, 1, 4] l) = .ok r' ∧
    ∀ i j, r'.betas i j = 1000 * r.betas i j := by
  obtain ⟨r, h⟩ := ridge_line_run sv zero_le_one ![0, 1, 4] rfl (by norm_num)
  obtain ⟨r', h', hr⟩ := C146_unit sv _ .serial (moreThreads 3) trivial moreThreads_valid _ _ _ _ _ 1000 (by norm_num) r h
  exact ⟨r, r', h, h', hr.betas⟩

/-- C146, prediction: the coefficients at the observations themselves. -/
example (sv : Matrix (Fin 3) (Fin 2) ℝ → ℝ × ℝ) : ∃ B : Matrix (Fin 3) (Fin 2) ℝ,
    lcrPredictRun sv ⟨1, false, 30⟩ ⟨false, none⟩ ⟨1, false, .Gaussian⟩ (lineCoords 2) (lineCoords 2) 3 exX (fun l => -2 * ![0, 1, 4] l) =
      .ok (Matrix.of fun i j => -2 * B i j, false) := by
  obtain ⟨r, h⟩ := ridge_line_run sv zero_le_one ![0, 1, 4] rfl (by norm_num)
  have h := ((C103_modes_agree sv ⟨1, false, 30⟩ (fun _ => .serial) (fun _ => trivial) .serial trivial _ _ _ _ _).1 r).1 h
  unfold lcrRun at h
  obtain ⟨d', hd, h⟩ := Res.bind_eq_ok'.1 h
  obtain ⟨W, hW, h⟩ := Res.bind_eq_ok'.1 h
  have hs : lcrPredictSerial sv ⟨1, false, 30⟩ exX ![0, 1, 4] W NoStop = _ := serialFor_ok r.betas _ _ _ (fun _ _ => rfl) fun i _ => (lcrFit_ok h).1 i
  obtain ⟨B, hp⟩ : ∃ B, lcrPredictRun sv ⟨1, false, 30⟩ ⟨false, none⟩ ⟨1, false, .Gaussian⟩ (lineCoords 2) (lineCoords 2) 3 exX ![0, 1, 4] =
      .ok (B, false) := by
    unfold lcrPredictRun
    rw [hd]
    simp only [Res.bind, hW]
    exact ⟨_, hs⟩
  exact ⟨_, C146_unit_prediction sv _ _ _ _ _ _ _ (-2) (by norm_num) _ _ hp⟩

/-- C146, effect: the covariate itself added to the response. -/
example (sv : Matrix (Fin 3) (Fin 2) ℝ → ℝ × ℝ) : ∃ r r',
    lcrRunIn sv ⟨1, false, 30⟩ .serial ⟨false, none⟩ ⟨1, false, .Gaussian⟩ (lineCoords 2) exX ![0, 1, 4] = .ok r ∧
    lcrRunIn sv ⟨1, false, 30⟩ .serial ⟨false, none⟩ ⟨1, false, .Gaussian⟩ (lineCoords 2) exX (changedResponse exX 1 ![0, 1] ![0, 1, 4]) = .ok r' ∧
    ∀ i, r'.betas i ≠ r.betas i + ![0, 1] := by
  obtain ⟨r, h⟩ := ridge_line_run sv zero_le_one ![0, 1, 4] rfl (by norm_num)
  obtain ⟨r', h'⟩ := ridge_line_run sv zero_le_one (changedResponse exX 1 ![0, 1] ![0, 1, 4]) (by simp [changedResponse, exX]) (by simp [changedResponse, exX])
  exact ⟨r, r', h, h', C146_effect_fails sv 1 30 one_ne_zero .serial .serial trivial trivial _ _ _ _ _ _
    (fun h => by simpa using congrFun h 1) r r' h h'⟩

/-- C146, effect without ridge term: the covariate itself added to three times the response. -/
example (sv : Matrix (Fin 3) (Fin 2) ℝ → ℝ × ℝ) : ∃ r r',
    lcrRunIn sv ⟨0, false, 30⟩ .serial ⟨false, none⟩ ⟨1, false, .Gaussian⟩ (lineCoords 2) exX ![0, 1, 4] = .ok r ∧
    lcrRunIn sv ⟨0, false, 30⟩ .serial ⟨false, none⟩ ⟨1, false, .Gaussian⟩ (lineCoords 2) exX (changedResponse exX 3 ![0, 1] ![0, 1, 4]) = .ok r' ∧
    ∀ i, r'.betas i 1 = 3 * r.betas i 1 + 1 := by
  obtain ⟨r, h⟩ := ridge_line_run sv le_rfl ![0, 1, 4] rfl (by norm_num)
  obtain ⟨r', h'⟩ := ridge_line_run sv le_rfl (changedResponse exX 3 ![0, 1] ![0, 1, 4]) (by simp [changedResponse, exX])
    (by norm_num [changedResponse, exX])
  exact ⟨r, r', h, h', fun i => C146_effect_without_ridge sv 30 .serial .serial trivial trivial _ _ _ _ _ 3 ![0, 1] r r' h h' i 1⟩

end Verif.Props

import Verif.Props.Reordering
import Verif.Props.RidgeRunGeneral
import Verif.Props.SummaryRun

/-! # C143: the order of the observations in ridge regression, summary statistics and principal components -/

namespace Verif.Props
open Verif Verif.Model Verif.Spec Matrix Classical

variable {n k p : ℕ}

/-! ### Ridge regression -/

theorem stretch_reordered (σ : Equiv.Perm (Fin n)) (a : Matrix (Fin n) (Fin k) ℝ) (v : Fin k → ℝ) :
    ∑ l, (∑ j, permRows σ a l j * v j) ^ 2 = ∑ l, (∑ j, a l j * v j) ^ 2 := Equiv.sum_comp σ fun l => (∑ j, a l j * v j) ^ 2

theorem sumSq_pos {v : Fin k → ℝ} (h : v ≠ 0) : 0 < ∑ j, v j ^ 2 := by
  obtain ⟨j, hj⟩ := Function.ne_iff.1 h
  exact Finset.sum_pos' (fun _ _ => sq_nonneg _) ⟨j, Finset.mem_univ _, by have : v j ≠ 0 := hj; positivity⟩

theorem sv_reordered {sv : Matrix (Fin n) (Fin k) ℝ → ℝ × ℝ} (hsv : ExactSV sv) (σ : Equiv.Perm (Fin n)) (a : Matrix (Fin n) (Fin k) ℝ) :
    sv (permRows σ a) = sv a := by
  obtain ⟨⟨p1, p2, v, hv, p3⟩, q1, q2, u, hu, q3⟩ := hsv a
  obtain ⟨⟨p1', p2', v', hv', p3'⟩, q1', q2', u', hu', q3'⟩ := hsv (permRows σ a)
  simp only [stretch_reordered] at p2' p3' q2' q3'
  have key : ∀ {s t : ℝ} {w : Fin k → ℝ}, w ≠ 0 → 0 ≤ t → s ^ 2 * ∑ j, w j ^ 2 ≤ t ^ 2 * ∑ j, w j ^ 2 → s ≤ t := fun hw ht h =>
    le_of_sq_le_sq (le_of_mul_le_mul_right h (sumSq_pos hw)) ht
  refine Prod.ext (le_antisymm ?_ ?_) (le_antisymm ?_ ?_)
  · exact key hv' p1 (p3' ▸ p2 v')
  · exact key hv p1' (p3 ▸ p2' v)
  · exact key hu q1 (q3 ▸ q2' u)
  · exact key hu' q1' (q3' ▸ q2 u')

theorem stddev_reordered (σ : Equiv.Perm (Fin n)) (v : Fin n → ℝ) : stddev (fun l => v (σ l)) = stddev v := by
  have hm : meanVec (fun l => v (σ l)) = meanVec v := by
    unfold meanVec
    rw [Equiv.sum_comp σ v]
  unfold stddev
  rw [hm, Equiv.sum_comp σ fun l => (v l - meanVec v) ^ 2]

theorem exists_reordered (σ : Equiv.Perm (Fin n)) (P : Fin n → Prop) : (∃ l, P (σ l)) ↔ ∃ l, P l :=
  ⟨fun ⟨l, h⟩ => ⟨σ l, h⟩, fun ⟨l, h⟩ => ⟨σ.symm l, by simpa using h⟩⟩

theorem ridgelm_reordered (σ : Equiv.Perm (Fin n)) (x : Matrix (Fin n) (Fin k) ℝ) (y w : Fin n → ℝ) (lam : ℝ) :
    ridgelm (permRows σ x) (y ∘ σ) (w ∘ σ) lam = ridgelm x y w lam := by
  have hs : ∀ j, ridgeScale (permRows σ x) j = ridgeScale x j := fun j => by
    unfold ridgeScale
    rw [← stddev_reordered σ fun l => x l j]
    rfl
  have hy : (stddev fun l => (y ∘ σ) l * Real.sqrt ((w ∘ σ) l)) = stddev fun l => y l * Real.sqrt (w l) :=
    stddev_reordered σ fun l => y l * Real.sqrt (w l)
  have hw : (∃ l, (w ∘ σ) l < 0) ↔ ∃ l, w l < 0 := exists_reordered σ fun l => w l < 0
  unfold ridgelm
  simp only [hs, hy, hw]
  have e1 : ∀ s : Fin k → ℝ, (Matrix.of fun l j => permRows σ x l j * Real.sqrt ((w ∘ σ) l) / s j : Matrix (Fin n) (Fin k) ℝ)ᵀ *
      (Matrix.of fun l j => permRows σ x l j * Real.sqrt ((w ∘ σ) l) / s j : Matrix (Fin n) (Fin k) ℝ) =
      (Matrix.of fun l j => x l j * Real.sqrt (w l) / s j : Matrix (Fin n) (Fin k) ℝ)ᵀ * (Matrix.of fun l j => x l j * Real.sqrt (w l) / s j) := by
    intro s
    ext a b
    simp only [mul_apply, transpose_apply, of_apply]
    exact Equiv.sum_comp σ fun l => x l a * Real.sqrt (w l) / s a * (x l b * Real.sqrt (w l) / s b)
  have e2 : ∀ (s : Fin k → ℝ) (t : ℝ), (Matrix.of fun l j => permRows σ x l j * Real.sqrt ((w ∘ σ) l) / s j : Matrix (Fin n) (Fin k) ℝ)ᵀ *ᵥ
      (fun l => (y ∘ σ) l * Real.sqrt ((w ∘ σ) l) / t) =
      (Matrix.of fun l j => x l j * Real.sqrt (w l) / s j : Matrix (Fin n) (Fin k) ℝ)ᵀ *ᵥ fun l => y l * Real.sqrt (w l) / t := by
    intro s t
    funext a
    simp only [mulVec, dotProduct, transpose_apply, of_apply]
    exact Equiv.sum_comp σ fun l => x l a * Real.sqrt (w l) / s a * (y l * Real.sqrt (w l) / t)
  simp only [e1, e2]

theorem lcrWeighted_reordered (σ : Equiv.Perm (Fin n)) (x : Matrix (Fin n) (Fin k) ℝ) (w : Fin n → ℝ) :
    lcrWeighted (permRows σ x) (w ∘ σ) = permRows σ (lcrWeighted x w) := by
  ext l j
  simp only [lcrWeighted, permRows, of_apply, Function.comp]

theorem lcrScaled_reordered (σ : Equiv.Perm (Fin n)) (x : Matrix (Fin n) (Fin k) ℝ) (w : Fin n → ℝ) :
    lcrScaled (permRows σ x) (w ∘ σ) = (lcrScaled x w).bind fun a => .ok (permRows σ a) := by
  have hsum : ∀ j, ∑ l, permRows σ (lcrWeighted x w) l j * permRows σ (lcrWeighted x w) l j =
      ∑ l, lcrWeighted x w l j * lcrWeighted x w l j := fun j => by
    simp only [permRows]
    exact Equiv.sum_comp σ fun l => lcrWeighted x w l j * lcrWeighted x w l j
  unfold lcrScaled
  rw [lcrWeighted_reordered]
  simp only [hsum]
  by_cases h : ∃ j, ∑ l, lcrWeighted x w l j * lcrWeighted x w l j = 0
  · rw [if_pos h, if_pos h]; simp only [Res.bind]
  · rw [if_neg h, if_neg h]
    simp only [Res.bind, Res.ok.injEq]
    ext l j
    simp only [of_apply, permRows]

theorem lcrBeta_reordered {sv : Matrix (Fin n) (Fin k) ℝ → ℝ × ℝ} (hsv : ExactSV sv) (cfg : LcrCfg) (σ : Equiv.Perm (Fin n))
    (x : Matrix (Fin n) (Fin k) ℝ) (y w : Fin n → ℝ) : lcrBeta sv cfg (permRows σ x) (y ∘ σ) (w ∘ σ) = lcrBeta sv cfg x y w := by
  unfold lcrBeta
  rw [lcrScaled_reordered]
  by_cases hk : k < 2
  · rw [if_pos hk, if_pos hk]
  · rw [if_neg hk, if_neg hk]
    generalize lcrScaled x w = z
    cases z with
    | ok a => simp only [Res.bind, sv_reordered hsv, ridgelm_reordered]
    | throw e => simp only [Res.bind]
    | ub => simp only [Res.bind]
    | nonfinite => simp only [Res.bind]

theorem lcrHat_reordered (σ : Equiv.Perm (Fin n)) (x : Matrix (Fin n) (Fin k) ℝ) (w : Fin n → ℝ) (i : Fin n) :
    lcrHatRow (permRows σ x) (w ∘ σ) i = (lcrHatRow x w (σ i)).bind fun h => .ok (h ∘ σ) := by
  unfold lcrHatRow
  rw [perm_xtwx]
  cases invGeneral (xtwx x w) with
  | ok inv => rfl
  | _ => rfl

/-- What a ridge fit reports does not depend on the order. -/
structure RidgeReordered (σ : Equiv.Perm (Fin n)) (r r' : LcrResult n k) : Prop where
  betas : ∀ i j, r'.betas i j = r.betas (σ i) j
  diagnostic : r'.diagnostic = r.diagnostic

theorem lcrFit_reordered {sv : Matrix (Fin n) (Fin k) ℝ → ℝ × ℝ} (hsv : ExactSV sv) {cfg : LcrCfg} (σ : Equiv.Perm (Fin n))
    {x : Matrix (Fin n) (Fin k) ℝ} {y : Fin n → ℝ} {W : Fin n → Fin n → ℝ} {r : LcrResult n k}
    (h : lcrFit (lcrFitSerial sv cfg x y W NoStop) x y 0 = .ok r) :
    ∃ r', lcrFit (lcrFitSerial sv cfg (permRows σ x) (y ∘ σ) (permW σ W) NoStop) (permRows σ x) (y ∘ σ) 0 = .ok r' ∧ RidgeReordered σ r r' := by
  obtain ⟨h1, H, h2, h3⟩ := lcrFit_ok h
  have b : ∀ i, lcrBeta sv cfg (permRows σ x) (y ∘ σ) (permW σ W i) = .ok (r.betas (σ i)) := fun i =>
    (lcrBeta_reordered hsv cfg σ x y (W (σ i))).trans (h1 (σ i))
  have hh : ∀ i, lcrHatRow (permRows σ x) (permW σ W i) i = .ok (H (σ i) ∘ σ) := fun i => by
    rw [permW, lcrHat_reordered, h2]; rfl
  have hl : ∀ i ∈ List.finRange n, lcrLocal sv cfg (permRows σ x) (y ∘ σ) (permW σ W) i = .ok (r.betas (σ i), H (σ i) ∘ σ) := fun i _ => by
    simp only [lcrLocal, b, hh, Res.bind]
  have hs : lcrFitSerial sv cfg (permRows σ x) (y ∘ σ) (permW σ W) NoStop 0 = _ := serialFor_ok _ _ 0 _ (fun _ _ => rfl) hl
  have hf : ∃ r', lcrFit (lcrFitSerial sv cfg (permRows σ x) (y ∘ σ) (permW σ W) NoStop) (permRows σ x) (y ∘ σ) 0 = .ok r' := by
    unfold lcrFit
    rw [hs]
    exact ⟨_, rfl⟩
  obtain ⟨r', hr'⟩ := hf
  obtain ⟨g1, H', g2, g3⟩ := lcrFit_ok hr'
  have eb : ∀ i, r'.betas i = r.betas (σ i) := fun i => Res.ok.inj ((g1 i).symm.trans (b i))
  have eH : ∀ i, H' i = H (σ i) ∘ σ := fun i => Res.ok.inj ((g2 i).symm.trans (hh i))
  refine ⟨r', hr', fun i j => by rw [eb], ?_⟩
  have t1 : ∑ i, H' i i = ∑ i, H i i := by
    rw [← Equiv.sum_comp σ fun i => H i i]
    exact Finset.sum_congr rfl fun i _ => by rw [eH]; rfl
  have t2 : ∑ i, ∑ l, H' i l ^ 2 = ∑ i, ∑ l, H i l ^ 2 := by
    rw [← Equiv.sum_comp σ fun i => ∑ l, H i l ^ 2]
    exact Finset.sum_congr rfl fun i _ => by
      rw [eH, ← Equiv.sum_comp σ fun l => H (σ i) l ^ 2]; rfl
  have ty : ∑ i, ((y ∘ σ) i - meanVec (y ∘ σ)) * ((y ∘ σ) i - meanVec (y ∘ σ)) = ∑ i, (y i - meanVec y) * (y i - meanVec y) := by
    have hm : meanVec (y ∘ σ) = meanVec y := by
      unfold meanVec
      exact congrArg (· / _) (Equiv.sum_comp σ y)
    rw [hm]
    exact Equiv.sum_comp σ fun i => (y i - meanVec y) * (y i - meanVec y)
  rw [g3, h3, t1, t2]
  unfold lcrDiagnostic
  rw [perm_rss σ x r.betas r'.betas y eb, ty]

theorem lcrCV_reordered {sv : Matrix (Fin n) (Fin k) ℝ → ℝ × ℝ} (hsv : ExactSV sv) {cfg : LcrCfg} (σ : Equiv.Perm (Fin n))
    {x : Matrix (Fin n) (Fin k) ℝ} {y : Fin n → ℝ} {W : Fin n → Fin n → ℝ} {v : ℝ} (h : lcrCriterionCV sv cfg x y W NoStop = .ok v) :
    lcrCriterionCV sv cfg (permRows σ x) (y ∘ σ) (permW σ W) NoStop = .ok v := by
  unfold lcrCriterionCV at h ⊢
  obtain ⟨⟨B, t⟩, h1, h⟩ := Res.bind_eq_ok'.1 h
  have ht : t = false := serialFor_nostop _ _ _ h1
  subst ht
  have hb := (betaLoop_ok (List.nodup_finRange n) h1).1
  have hl : ∀ i ∈ List.finRange n, lcrBeta sv cfg (permRows σ x) (y ∘ σ) (cvWeight (permW σ W) i) = .ok (B (σ i)) := fun i _ => by
    rw [permW_cv, lcrBeta_reordered hsv]
    exact hb (σ i) (List.mem_finRange _)
  have hs : serialFor (fun i => lcrBeta sv cfg (permRows σ x) (y ∘ σ) (cvWeight (permW σ W) i)) setRow NoStop (List.finRange n) 0
      (0 : Matrix (Fin n) (Fin k) ℝ) = _ := serialFor_ok _ _ 0 _ (fun _ _ => rfl) hl
  have hb' := (betaLoop_ok (List.nodup_finRange n) hs).1
  rw [hs]
  simp only [Res.bind, Bool.false_eq_true, if_false] at h ⊢
  rw [perm_rss σ x B _ y fun i => Res.ok.inj ((hb' i (List.mem_finRange _)).symm.trans (hl i (List.mem_finRange _)))]
  exact h

theorem perm_perm (σ : Equiv.Perm (Fin n)) (x : Matrix (Fin n) (Fin k) ℝ) : permRows σ.symm (permRows σ x) = x := by
  funext i
  simp [permRows]

theorem lcrCriterion_reordered {sv : Matrix (Fin n) (Fin k) ℝ → ℝ × ℝ} (hsv : ExactSV sv) {cfg : LcrCfg} {σ : Equiv.Perm (Fin n)} {geo : Bool}
    {c c' : DynMat} (hp : PermCoords n σ c c') {x : Matrix (Fin n) (Fin k) ℝ} {y : Fin n → ℝ} {b : BandwidthWeight} {v : ℝ} :
    lcrCriterion sv cfg ⟨geo, some (c', c')⟩ (permRows σ x) (y ∘ σ) b = .ok v ↔ lcrCriterion sv cfg ⟨geo, some (c, c)⟩ x y b = .ok v := by
  have key : ∀ {σ : Equiv.Perm (Fin n)} {c c' : DynMat} (_ : PermCoords n σ c c') {x : Matrix (Fin n) (Fin k) ℝ} {y : Fin n → ℝ},
      lcrCriterion sv cfg ⟨geo, some (c, c)⟩ x y b = .ok v → lcrCriterion sv cfg ⟨geo, some (c', c')⟩ (permRows σ x) (y ∘ σ) b = .ok v := by
    intro σ c c' hp x y h
    unfold lcrCriterion at h ⊢
    obtain ⟨W, hW, h⟩ := Res.bind_eq_ok'.1 h
    rw [perm_weights hp hW]
    exact lcrCV_reordered hsv σ h
  refine ⟨fun h => ?_, key hp⟩
  have := key hp.symm h
  rwa [perm_perm, show (y ∘ σ) ∘ σ.symm = y from by funext i; simp] at this

theorem lcrScore_reordered {sv : Matrix (Fin n) (Fin k) ℝ → ℝ × ℝ} (hsv : ExactSV sv) {cfg : LcrCfg} {σ : Equiv.Perm (Fin n)} {geo : Bool}
    {c c' : DynMat} (hp : PermCoords n σ c c') (x : Matrix (Fin n) (Fin k) ℝ) (y : Fin n → ℝ) (b : BandwidthWeight) :
    lcrScore sv cfg ⟨geo, some (c', c')⟩ (permRows σ x) (y ∘ σ) b = lcrScore sv cfg ⟨geo, some (c, c)⟩ x y b := by
  have h := fun v => lcrCriterion_reordered hsv (cfg := cfg) (geo := geo) hp (x := x) (y := y) (b := b) (v := v)
  unfold lcrScore
  cases h1 : lcrCriterion sv cfg ⟨geo, some (c', c')⟩ (permRows σ x) (y ∘ σ) b with
  | ok v => rw [(h v).1 h1]
  | _ =>
    cases h2 : lcrCriterion sv cfg ⟨geo, some (c, c)⟩ x y b with
    | ok v => rw [(h v).2 h2] at h1; cases h1
    | _ => rfl

/-- **C143 (ridge regression).** Listing the observations in another order, with a given bandwidth or with the bandwidth selected, serially or under
any schedules: the same bandwidth is selected, the coefficients move with their observations, and the diagnostics are the same. -/
theorem C143_ridge (sv : Matrix (Fin n) (Fin k) ℝ → ℝ × ℝ) (hsv : ExactSV sv) (cfg : LcrCfg) (sched sched' : ℕ → Exec n)
    (hs : ∀ j, (sched j).Valid) (hs' : ∀ j, (sched' j).Valid) (ex ex' : Exec n) (hex : ex.Valid) (hex' : ex'.Valid) (d : CRSDistance)
    (b : BandwidthWeight) (coords coords' : DynMat) (σ : Equiv.Perm (Fin n)) (hp : PermCoords n σ coords coords') (x : Matrix (Fin n) (Fin k) ℝ)
    (y : Fin n → ℝ) :
    (∀ r, lcrRunIn sv cfg ex d b coords x y = .ok r →
      ∃ r', lcrRunIn sv cfg ex' d b coords' (fun i => x (σ i)) (fun i => y (σ i)) = .ok r' ∧ RidgeReordered σ r r') ∧
    ∀ b1 r, lcrAutoRunIn sv cfg sched ex d b coords x y = .ok (b1, r) →
      ∃ r', lcrAutoRunIn sv cfg sched' ex' d b coords' (fun i => x (σ i)) (fun i => y (σ i)) = .ok (b1, r') ∧ RidgeReordered σ r r' := by
  rw [show (fun i => x (σ i)) = permRows σ x from rfl, show (fun i => y (σ i)) = y ∘ σ from rfl]
  have m := C103_modes_agree sv cfg sched hs ex hex d b coords x y
  have m' := C103_modes_agree sv cfg sched' hs' ex' hex' d b coords' (permRows σ x) (y ∘ σ)
  constructor
  · intro r h
    have h := (m.1 r).1 h
    unfold lcrRun at h
    obtain ⟨d', hd, h⟩ := Res.bind_eq_ok'.1 h
    obtain ⟨c1, -, rfl⟩ := bindLocations_eq_ok.1 hd
    obtain ⟨W, hW, h⟩ := Res.bind_eq_ok'.1 h
    obtain ⟨r', h', hr⟩ := lcrFit_reordered hsv σ h
    refine ⟨r', (m'.1 r').2 ?_, hr⟩
    unfold lcrRun
    rw [bindLocations_eq_ok.2 ⟨hp.2.2.1.trans c1, hp.2.2.1.trans c1, rfl⟩]
    simp only [Res.bind, perm_weights hp hW]
    exact h'
  · intro b1 r h
    have h := (m.2 _).1 h
    unfold lcrAutoRun at h
    obtain ⟨d', hd, h⟩ := Res.bind_eq_ok'.1 h
    obtain ⟨c1, -, rfl⟩ := bindLocations_eq_ok.1 hd
    obtain ⟨s, hsel, h⟩ := Res.bind_eq_ok'.1 h
    obtain ⟨b2, hb, h⟩ := Res.bind_eq_ok'.1 h
    obtain ⟨W, hW, h⟩ := Res.bind_eq_ok'.1 h
    obtain ⟨f, hf, h⟩ := Res.bind_eq_ok'.1 h
    simp only [Res.ok.injEq, Prod.mk.injEq] at h
    obtain ⟨rfl, rfl⟩ := h
    obtain ⟨r', h', hr⟩ := lcrFit_reordered hsv σ hf
    have hsel' : lcrSelectBandwidth sv cfg ⟨d.mGeographic, some (coords', coords')⟩ b (permRows σ x) (y ∘ σ) = .ok s := by
      have e : (fun (_ : ℕ) b => (true, lcrScore sv cfg ⟨d.mGeographic, some (coords', coords')⟩ (permRows σ x) (y ∘ σ) b)) =
          fun (_ : ℕ) b => (true, lcrScore sv cfg ⟨d.mGeographic, some (coords, coords)⟩ x y b) := by
        funext _ b
        rw [lcrScore_reordered hsv hp]
      unfold lcrSelectBandwidth at hsel ⊢
      obtain ⟨u, hu, hsel⟩ := Res.bind_eq_ok'.1 hsel
      refine Res.bind_eq_ok'.2 ⟨u, ?_, ?_⟩
      · split at hu
        · rename_i ha; rw [if_pos ha]; exact hu
        · rename_i ha; rw [if_neg ha]; exact max_reordered hp hu
      · simp only [e, lcrCriterion_reordered hsv hp]
        exact hsel
    refine ⟨r', (m'.2 _).2 ?_, hr⟩
    unfold lcrAutoRun
    rw [bindLocations_eq_ok.2 ⟨hp.2.2.1.trans c1, hp.2.2.1.trans c1, rfl⟩]
    simp only [Res.bind, hsel', hb, perm_weights hp hW]
    have h' : lcrFit (lcrFitSerial sv cfg (permRows σ x) (y ∘ σ) (permW σ W) fun _ => false) (permRows σ x) (y ∘ σ) 0 = .ok r' := h'
    rw [h']

/-! ### Summary statistics -/

/-- Rows `σ 0, σ 1, …` of a table of values. -/
def permTable (σ : Equiv.Perm (Fin n)) (X : Fin n → Fin k → ℝ) : Fin n → Fin k → ℝ := fun i => X (σ i)

theorem shares_reordered (σ : Equiv.Perm (Fin n)) (w : Fin n → ℝ) : shares (w ∘ σ) = (shares w).map (· ∘ σ) := by
  have hs : ∑ l, (w ∘ σ) l = ∑ l, w l := Equiv.sum_comp σ w
  unfold shares
  rw [hs]
  by_cases h : ∑ l, w l = 0
  · rw [if_pos h, if_pos h]; rfl
  · rw [if_neg h, if_neg h]; rfl

theorem localMean_reordered (σ : Equiv.Perm (Fin n)) (X : Fin n → Fin k → ℝ) (q : Fin n → ℝ) (j : Fin k) :
    localMean (permTable σ X) (q ∘ σ) j = localMean X q j := by
  simp only [localMean, permTable, Function.comp]
  exact Equiv.sum_comp σ fun l => q l * X l j

theorem localVar_reordered (σ : Equiv.Perm (Fin n)) (X : Fin n → Fin k → ℝ) (q : Fin n → ℝ) (j : Fin k) :
    localVar (permTable σ X) (q ∘ σ) j = localVar X q j := by
  simp only [localVar, localMean_reordered]
  simp only [permTable, Function.comp]
  exact Equiv.sum_comp σ fun l => q l * ((X l j - localMean X q j) * (X l j - localMean X q j))

theorem localThird_reordered (σ : Equiv.Perm (Fin n)) (X : Fin n → Fin k → ℝ) (q : Fin n → ℝ) (j : Fin k) :
    localThird (permTable σ X) (q ∘ σ) j = localThird X q j := by
  simp only [localThird, localMean_reordered]
  simp only [permTable, Function.comp]
  exact Equiv.sum_comp σ fun l => q l * ((X l j - localMean X q j) * (X l j - localMean X q j) * (X l j - localMean X q j))

theorem covwt_reordered (σ : Equiv.Perm (Fin n)) (x1 x2 w : Fin n → ℝ) : covwt (x1 ∘ σ) (x2 ∘ σ) (w ∘ σ) = covwt x1 x2 w := by
  have m : ∀ x : Fin n → ℝ, ∑ m, (x ∘ σ) m * (w ∘ σ) m = ∑ m, x m * w m := fun x => Equiv.sum_comp σ fun m => x m * w m
  have hw : (∃ l, (w ∘ σ) l < 0) ↔ ∃ l, w l < 0 := exists_reordered σ fun l => w l < 0
  have h1 : ∀ a b : ℝ, ∑ l, (Real.sqrt ((w ∘ σ) l) * ((x1 ∘ σ) l - a)) * (Real.sqrt ((w ∘ σ) l) * ((x2 ∘ σ) l - b)) =
      ∑ l, (Real.sqrt (w l) * (x1 l - a)) * (Real.sqrt (w l) * (x2 l - b)) := fun a b =>
    Equiv.sum_comp σ fun l => (Real.sqrt (w l) * (x1 l - a)) * (Real.sqrt (w l) * (x2 l - b))
  have h2 : ∑ l, (w ∘ σ) l * (w ∘ σ) l = ∑ l, w l * w l := Equiv.sum_comp σ fun l => w l * w l
  unfold covwt
  simp only [m, hw, h1, h2]

theorem corwt_reordered (σ : Equiv.Perm (Fin n)) (x1 x2 w : Fin n → ℝ) : corwt (x1 ∘ σ) (x2 ∘ σ) (w ∘ σ) = corwt x1 x2 w := by
  unfold corwt
  simp only [covwt_reordered]

/-- Different values have one sorting permutation. -/
theorem sorts_unique {x : Fin n → ℝ} (hx : Function.Injective x) {a b : Equiv.Perm (Fin n)} (ha : Sorts x a) (hb : Sorts x b) : a = b := by
  have sa : StrictMono (x ∘ a) := ha.strictMono_of_injective (hx.comp a.injective)
  have sb : StrictMono (x ∘ b) := hb.strictMono_of_injective (hx.comp b.injective)
  have hr : Set.range (x ∘ a) = Set.range (x ∘ b) := by
    rw [Set.range_comp, Set.range_comp, a.surjective.range_eq, b.surjective.range_eq]
  ext l
  exact congrArg Fin.val (hx (congrFun ((sa.range_inj sb).1 hr) l))

theorem ord_reordered {ord : (Fin n → ℝ) → Equiv.Perm (Fin n)} (hord : ∀ x, Sorts x (ord x)) (σ : Equiv.Perm (Fin n)) {x : Fin n → ℝ}
    (hx : Function.Injective x) (l : Fin n) : σ (ord (x ∘ σ) l) = ord x l := by
  have h : Sorts x ((ord (x ∘ σ)).trans σ) := hord (x ∘ σ)
  exact congrArg (fun e : Equiv.Perm (Fin n) => e l) (sorts_unique hx h (hord x))

theorem rank_reordered {ord : (Fin n → ℝ) → Equiv.Perm (Fin n)} (hord : ∀ x, Sorts x (ord x)) (σ : Equiv.Perm (Fin n)) {x : Fin n → ℝ}
    (hx : Function.Injective x) : rankOf ord (x ∘ σ) = rankOf ord x ∘ σ := by
  funext l
  simp only [Function.comp_def]
  rw [rankOf_eq hord, rankOf_eq hord]
  have : (ord fun l => x (σ l)).symm l = (ord x).symm (σ l) := by
    rw [Equiv.symm_apply_eq, ← σ.injective.eq_iff]
    exact ((ord_reordered hord σ hx _).trans (by simp)).symm
  rw [this]

theorem rankX_reordered {ord : (Fin n → ℝ) → Equiv.Perm (Fin n)} (hord : ∀ x, Sorts x (ord x)) (σ : Equiv.Perm (Fin n)) {X : Fin n → Fin k → ℝ}
    (hX : ∀ j, Function.Injective fun l => X l j) : rankX ord (permTable σ X) = permTable σ (rankX ord X) := by
  funext l j
  exact congrFun (rank_reordered hord σ (hX j)) l

theorem findq_reordered {ord : (Fin n → ℝ) → Equiv.Perm (Fin n)} (hord : ∀ x, Sorts x (ord x)) (σ : Equiv.Perm (Fin n)) {x : Fin n → ℝ}
    (hx : Function.Injective x) (q : Option (Fin n → ℝ)) (hn : 0 < n) (t : Fin 3) :
    findq (ord (x ∘ σ)) (x ∘ σ) (q.map (· ∘ σ)) hn t = findq (ord x) x q hn t := by
  have ho := ord_reordered hord σ hx
  cases q with
  | none => simp only [findq, Option.map_none, Function.comp_apply, ho]
  | some q =>
    have hc : ∀ i, cumShare (ord (x ∘ σ)) (q ∘ σ) i = cumShare (ord x) q i := fun i => by simp only [cumShare, Function.comp_apply, ho]
    simp only [findq, Option.map_some, hc, Function.comp_apply, ho]

theorem avgRow_reordered {ord : (Fin n → ℝ) → Equiv.Perm (Fin n)} (σ : Equiv.Perm (Fin n)) {X : Fin n → Fin k → ℝ} {quantile : Bool}
    (hq : quantile = true → (∀ x, Sorts x (ord x)) ∧ ∀ j, Function.Injective fun l => X l j) (w : Fin n → ℝ) (hn : 0 < n) :
    avgRow ord (permTable σ X) quantile (w ∘ σ) hn = avgRow ord X quantile w hn := by
  have e : quartiles ord (permTable σ X) quantile ((shares w).map (· ∘ σ)) hn = quartiles ord X quantile (shares w) hn := by
    unfold quartiles
    split
    · rename_i hb
      congr 1
      funext j
      congr 1
      funext t
      exact findq_reordered (hq hb).1 σ ((hq hb).2 j) (shares w) hn t
    · rfl
  unfold avgRow
  rw [shares_reordered, e]
  cases shares w with
  | none => rfl
  | some q => simp only [Option.map_some, Option.bind_some, localMean_reordered, localVar_reordered, localThird_reordered]

theorem averageEx_iff {ord : (Fin n → ℝ) → Equiv.Perm (Fin n)} {X : Fin n → Fin k → ℝ} {quantile : Bool} {W : Fin n → Fin n → ℝ} {ex : Exec n}
    (hex : ex.Valid) {rows : Fin n → AvgRow k} :
    gwAverageEx ord X quantile W ex = .ok rows ↔ ∀ i, avgRow ord X quantile (W i) i.pos = .ok (rows i) := by
  have hser : gwAverageSerial ord X quantile W (fun _ => false) = .ok (rows, false) ↔ ∀ i, avgRow ord X quantile (W i) i.pos = .ok (rows i) :=
    ⟨fun h i => avg_row h i, fun h => rowsSerial_ok (fun _ => rfl) rows h _⟩
  rw [← hser]
  cases ex with
  | serial =>
    simp only [gwAverageEx]
    rw [Res.bind_eq_ok']
    constructor
    · rintro ⟨⟨r, t⟩, h1, h2⟩
      obtain rfl : t = false := serialFor_nostop _ _ _ h1
      cases Res.ok.inj h2
      exact h1
    · intro h; exact ⟨_, h, rfl⟩
  | omp evs =>
    refine ⟨fun h => ?_, fun h => ?_⟩
    · by_cases hall : ∀ i, ∃ r, avgRow ord X quantile (W i) i.pos = .ok r
      · choose f hf using hall
        have e : gwAverageSerial ord X quantile W (fun _ => false) = .ok (f, false) := rowsSerial_ok (fun _ => rfl) f hf _
        have e' := (C59_average_parallel ord X quantile W (stop := fun _ => false) (fun _ => rfl) hex f).2 e
        simp only [gwAverageEx, e', Res.bind, Res.ok.injEq] at h
        rw [← h]
        exact e
      · push Not at hall
        obtain ⟨i, hi⟩ := hall
        have := omp_fail (g := fun i => avgRow ord X quantile (W i) i.pos) (upd := fun (_ : Fin _) i r (a : Fin n → AvgRow k) => Function.update a i r)
          (stop := fun _ => false) (fun _ => rfl) (fun _ => AvgRow.zero) (List.nodup_finRange n) hex i (List.mem_finRange i) hi
        simp only [gwAverageEx, gwAverageOmp, this, Bool.false_eq_true, if_false, Res.bind] at h
        cases h
    · simp only [gwAverageEx, (C59_average_parallel ord X quantile W (stop := fun _ => false) (fun _ => rfl) hex rows).2 h, Res.bind]

theorem escape_ok {α : Type*} {ex : Exec n} {r : Res α} {v : α} : summaryEscape ex r = .ok v ↔ r = .ok v := by
  cases ex <;> cases r <;> simp [summaryEscape]

/-- **C143 (averages).** Listing the observations in another order: the local means, variances, standard deviations, skewnesses and coefficients of
variation move with their observations, in any mode. The same for medians, interquartile ranges and quantile imbalances, if no variable has the same
value twice. -/
theorem C143_average (ord : (Fin n → ℝ) → Equiv.Perm (Fin n)) (d : CRSDistance) (b : BandwidthWeight) (coords coords' : DynMat)
    (σ : Equiv.Perm (Fin n)) (hp : PermCoords n σ coords coords') (X : Fin n → Fin k → ℝ) (quantile : Bool)
    (hq : quantile = true → (∀ x, Sorts x (ord x)) ∧ ∀ j, Function.Injective fun l => X l j) (ex ex' : Exec n) (hex : ex.Valid) (hex' : ex'.Valid)
    (t : AvgTable n k) (h : gwssAverageRun ord d b coords X quantile ex = .ok t) :
    ∃ t', gwssAverageRun ord d b coords' (fun i => X (σ i)) quantile ex' = .ok t' ∧ ∀ i, t'.rows i = t.rows (σ i) ∧ t'.lcv i = t.lcv (σ i) := by
  unfold gwssAverageRun at h
  obtain ⟨d', hd, h⟩ := Res.bind_eq_ok'.1 h
  obtain ⟨c1, -, rfl⟩ := bindLocations_eq_ok.1 hd
  obtain ⟨W, hW, h⟩ := Res.bind_eq_ok'.1 h
  obtain ⟨rows, hr, h⟩ := Res.bind_eq_ok'.1 h
  cases Res.ok.inj h
  have hr' : gwAverageEx ord (permTable σ X) quantile (permW σ W) ex' = .ok fun i => rows (σ i) :=
    (averageEx_iff hex').2 fun i => (avgRow_reordered σ hq (W (σ i)) i.pos).trans ((averageEx_iff hex).1 hr (σ i))
  refine ⟨⟨fun i => rows (σ i), fun i => lcv (rows (σ i))⟩, ?_, fun i => ⟨rfl, rfl⟩⟩
  unfold gwssAverageRun
  rw [bindLocations_eq_ok.2 ⟨hp.2.2.1.trans c1, hp.2.2.1.trans c1, rfl⟩]
  simp only [Res.bind, escape_ok.2 (perm_weights hp (escape_ok.1 hW))]
  rw [show (fun i => X (σ i)) = permTable σ X from rfl, hr']

theorem colEntry_reordered (σ : Equiv.Perm (Fin n)) (X R : Fin n → Fin k → ℝ) (w : Fin n → ℝ) (jk : Fin k × Fin k) :
    colEntry (permTable σ X) (permTable σ R) (shares (w ∘ σ)) jk = colEntry X R (shares w) jk := by
  rw [shares_reordered]
  cases shares w with
  | none => rfl
  | some q =>
    have hX : ∀ j, (fun l => permTable σ X l j) = (fun l => X l j) ∘ σ := fun _ => rfl
    have hR : ∀ j, (fun l => permTable σ R l j) = (fun l => R l j) ∘ σ := fun _ => rfl
    have h2 : ∑ l, (q ∘ σ) l * (q ∘ σ) l = ∑ l, q l * q l := Equiv.sum_comp σ fun l => q l * q l
    simp only [colEntry, Option.map_some, corrEntry, hX, hR, covwt_reordered, corwt_reordered, localVar_reordered, h2]

theorem corrFill_rel {α β : Type*} {c : ℕ} {Q : α → α → Prop} {f g : β → α} (hfg : ∀ b, Q (f b) (g b)) :
    ∀ (l : List β) (t : ℕ) (m m' : Fin c → α) (r : Fin c → α), (∀ i, Q (m i) (m' i)) → corrFill f l t m = .ok r →
      ∃ r', corrFill g l t m' = .ok r' ∧ ∀ i, Q (r i) (r' i)
  | [], _, m, m', r, hm, h => by
    simp only [corrFill, Res.ok.injEq] at h ⊢
    subst h
    exact ⟨m', rfl, hm⟩
  | b :: l, t, m, m', r, hm, h => by
    simp only [corrFill] at h ⊢
    split at h
    · rename_i ht
      rw [dif_pos ht]
      refine corrFill_rel hfg l (t + 1) _ _ r (fun i => ?_) h
      by_cases hi : i = ⟨t, ht⟩
      · subst hi; simp only [Function.update_self]; exact hfg b
      · simp only [Function.update_of_ne hi]; exact hm i
    · cases h

/-- Two rows of the correlation tables with the same means, variances, covariances and correlations. -/
def SameButRanks {c : ℕ} (r r' : CorrRow k c) : Prop :=
  r'.mean = r.mean ∧ r'.var = r.var ∧ ∀ a, (r'.cols a).1 = (r.cols a).1 ∧ (r'.cols a).2.1 = (r.cols a).2.1

theorem corrRow_reordered (σ : Equiv.Perm (Fin n)) (X R : Fin n → Fin k → ℝ) (firstOnly : Bool) (w : Fin n → ℝ) :
    corrRow (permTable σ X) (permTable σ R) firstOnly (w ∘ σ) = corrRow X R firstOnly w := by
  unfold corrRow
  rw [show colEntry (permTable σ X) (permTable σ R) (shares (w ∘ σ)) = colEntry X R (shares w) from funext fun jk => colEntry_reordered σ X R w jk,
    shares_reordered]
  cases shares w with
  | none => rfl
  | some q => simp only [Option.map_some, Option.bind_some, localMean_reordered, localVar_reordered]

theorem corrRow_ranks (X R R' : Fin n → Fin k → ℝ) (firstOnly : Bool) (w : Fin n → ℝ) {r : CorrRow k (corrCols k firstOnly)}
    (h : corrRow X R firstOnly w = .ok r) : ∃ r', corrRow X R' firstOnly w = .ok r' ∧ SameButRanks r r' := by
  unfold corrRow at h ⊢
  obtain ⟨cols, hc, h⟩ := Res.bind_eq_ok'.1 h
  cases Res.ok.inj h
  obtain ⟨cols', hc', hq⟩ := corrFill_rel (Q := fun a b => b.1 = a.1 ∧ b.2.1 = a.2.1) (g := colEntry X R' (shares w))
    (fun b => by cases shares w <;> exact ⟨rfl, rfl⟩) _ _ _ _ cols (fun _ => ⟨rfl, rfl⟩) hc
  rw [hc']
  exact ⟨_, rfl, rfl, rfl, hq⟩

theorem correlationEx_iff {ord : (Fin n → ℝ) → Equiv.Perm (Fin n)} {X : Fin n → Fin k → ℝ} {firstOnly : Bool} {W : Fin n → Fin n → ℝ} {ex : Exec n}
    (hk : 2 ≤ k) (hex : ex.Valid) {rows : Fin n → CorrRow k (corrCols k firstOnly)} :
    gwCorrelationEx ord X firstOnly W ex = .ok rows ↔ ∀ i, corrRow X (rankX ord X) firstOnly (W i) = .ok (rows i) := by
  have hser : gwCorrelationSerial ord X firstOnly W (fun _ => false) = .ok (rows, false) ↔ ∀ i, corrRow X (rankX ord X) firstOnly (W i) = .ok (rows i) := by
    unfold gwCorrelationSerial
    rw [if_pos hk]
    exact ⟨fun h i => rowsSerial_complete h i, fun h => rowsSerial_ok (fun _ => rfl) rows h _⟩
  rw [← hser]
  obtain ⟨rows1, e2⟩ : ∃ rows1, gwCorrelationSerial ord X firstOnly W (fun _ => false) = .ok (rows1, false) := by
    obtain ⟨pair, -, -, -, h⟩ := C41_columns (n := n) hk X firstOnly
    obtain ⟨rows, hr, -⟩ := h ord W (fun _ => false) fun _ => rfl
    exact ⟨rows, hr⟩
  have e1 : gwCorrelationEx ord X firstOnly W ex = .ok rows1 := by
    cases ex with
    | serial => simp only [gwCorrelationEx, e2, Res.bind]
    | omp evs =>
      obtain ⟨rows2, g1, g2⟩ := C59_correlation_parallel hk ord X firstOnly W (stop := fun _ => false) (fun _ => rfl) hex
      rw [e2] at g2
      cases Res.ok.inj g2
      simp only [gwCorrelationEx, g1, Res.bind]
  rw [e1, e2]
  simp

/-- **C143 (correlations).** Listing the observations in another order: the local means, variances, covariances and correlations move with their
observations, in any mode; the whole tables, rank correlations included, if no variable has the same value twice. See `C143_ties_fails` for variables
with equal values. -/
theorem C143_correlation (ord : (Fin n → ℝ) → Equiv.Perm (Fin n)) (d : CRSDistance) (b : BandwidthWeight) (coords coords' : DynMat)
    (σ : Equiv.Perm (Fin n)) (hp : PermCoords n σ coords coords') (X : Fin n → Fin k → ℝ) (firstOnly : Bool) (ex ex' : Exec n) (hex : ex.Valid)
    (hex' : ex'.Valid) (t : Fin n → CorrRow k (corrCols k firstOnly)) (h : gwssCorrelationRun ord d b coords X firstOnly ex = .ok t) :
    ∃ t', gwssCorrelationRun ord d b coords' (fun i => X (σ i)) firstOnly ex' = .ok t' ∧ (∀ i, SameButRanks (t (σ i)) (t' i)) ∧
      ((∀ x, Sorts x (ord x)) → (∀ j, Function.Injective fun l => X l j) → ∀ i, t' i = t (σ i)) := by
  unfold gwssCorrelationRun at h
  obtain ⟨d', hd, h⟩ := Res.bind_eq_ok'.1 h
  obtain ⟨c1, -, rfl⟩ := bindLocations_eq_ok.1 hd
  split at h
  · cases h
  rename_i hk
  obtain ⟨W, hW, h⟩ := Res.bind_eq_ok'.1 h
  have hrow := (correlationEx_iff (not_lt.1 hk) hex).1 h
  have h0 : ∀ i, corrRow (permTable σ X) (permTable σ (rankX ord X)) firstOnly (permW σ W i) = .ok (t (σ i)) := fun i =>
    (corrRow_reordered σ X _ firstOnly (W (σ i))).trans (hrow (σ i))
  choose t' h1 h2 using fun i => corrRow_ranks _ _ (rankX ord (permTable σ X)) firstOnly _ (h0 i)
  refine ⟨t', ?_, h2, fun hord hX i => ?_⟩
  · unfold gwssCorrelationRun
    rw [bindLocations_eq_ok.2 ⟨hp.2.2.1.trans c1, hp.2.2.1.trans c1, rfl⟩]
    simp only [Res.bind, if_neg hk, escape_ok.2 (perm_weights hp (escape_ok.1 hW))]
    exact (correlationEx_iff (not_lt.1 hk) hex').2 h1
  · have := h1 i
    rw [rankX_reordered hord σ hX, h0] at this
    exact (Res.ok.inj this).symm

theorem pair_cor {r0 r1 : Fin 2 → ℝ} {e : ℝ} (h0 : r0 1 - r0 0 = e) (he : e ^ 2 = 1) (h1 : r1 1 - r1 0 = 1 ∨ r1 1 - r1 0 = -1) :
    corwt r0 r1 (fun _ => 1 / 2) = some (e * (r1 1 - r1 0)) := by
  have hs : √(1 / 2 : ℝ) * √(1 / 2) = 1 / 2 := Real.mul_self_sqrt (by norm_num)
  have hc : ∀ a b : Fin 2 → ℝ, covwt a b (fun _ => 1 / 2) = some ((a 1 - a 0) * (b 1 - b 0) / 2) := by
    intro a b
    unfold covwt odiv
    rw [if_neg (by push Not; intro; norm_num), if_neg (by simp; norm_num)]
    simp only [Fin.sum_univ_two, Option.some.injEq]
    have e1 : ∀ u v : ℝ, √(1 / 2) * u * (√(1 / 2) * v) = 1 / 2 * (u * v) := fun u v => by
      calc √(1 / 2) * u * (√(1 / 2) * v) = (√(1 / 2) * √(1 / 2)) * (u * v) := by ring
        _ = _ := by rw [hs]
    simp only [e1]
    ring
  have hd : (r1 1 - r1 0) * (r1 1 - r1 0) = 1 := by rcases h1 with h | h <;> rw [h] <;> norm_num
  have he' : e * e = 1 := by nlinarith
  unfold corwt
  simp only [hc, Option.bind_some, h0, hd, he']
  have hq : √(1 / 2 * (1 / 2) : ℝ) = 1 / 2 := Real.sqrt_mul_self (by norm_num)
  rw [osqrt, if_neg (by norm_num), Option.bind_some, odiv, hq, if_neg (by norm_num)]
  congr 1
  ring

/-- One variable without variation and one with. -/
def tieX (i : Fin 2) (j : Fin 2) : ℝ := if j = 0 then 0 else (i : ℕ)

/-- **C143 fails for rank correlations of variables with equal values.** However the sorting function breaks ties: two observations of a constant
variable and a varying one get a rank correlation of 1 or -1, and the opposite one when they are listed in the other order. -/
theorem C143_ties_fails (ord : (Fin 2 → ℝ) → Equiv.Perm (Fin 2)) (hord : ∀ x, Sorts x (ord x)) (ex ex' : Exec 2) (hex : ex.Valid) (hex' : ex'.Valid) :
    ∃ (t t' : Fin 2 → CorrRow 2 1) (v : ℝ),
      gwssCorrelationRun ord ⟨false, none⟩ ⟨(2 : ℕ), false, .Boxcar⟩ (linePoints 2) tieX false ex = .ok t ∧
      gwssCorrelationRun ord ⟨false, none⟩ ⟨(2 : ℕ), false, .Boxcar⟩ (reorderedCoords (Equiv.swap (0 : Fin 2) 1) (linePoints 2))
        (fun i => tieX (Equiv.swap 0 1 i)) false ex' = .ok t' ∧
      (v = 1 ∨ v = -1) ∧ ∀ i j, ((t i).cols 0).2.2 = some v ∧ ((t' j).cols 0).2.2 = some (-v) := by
  have hk : (2 : ℕ) ≤ 2 := le_rfl
  set σ : Equiv.Perm (Fin 2) := Equiv.swap 0 1 with hσ
  have s0 : σ 0 = 1 := Equiv.swap_apply_left _ _
  have s1 : σ 1 = 0 := Equiv.swap_apply_right _ _
  have hp : PermCoords 2 σ (linePoints 2) (reorderedCoords σ (linePoints 2)) := reorderedCoords_perm (n := 2) σ rfl
  have hW := linePoints_rows (n := 2) (by norm_num)
  have hW' := perm_weights hp hW
  have hsh : ∀ w : Fin 2 → ℝ, (∀ l, w l = 1) → shares w = some fun _ => 1 / 2 := by
    intro w hw
    unfold shares
    simp only [hw, Fin.sum_univ_two]
    norm_num
  have row : ∀ (X R : Fin 2 → Fin 2 → ℝ) (w : Fin 2 → ℝ), (∀ l, w l = 1) → ∃ r : CorrRow 2 1, corrRow X R false w = .ok r ∧
      (r.cols 0).2.2 = corwt (fun l => R l 0) (fun l => R l 1) (fun _ => 1 / 2) := by
    intro X R w hw
    have hpairs : corrPairs 2 false = [((0 : Fin 2), (1 : Fin 2))] := by decide
    refine ⟨⟨fun j => (shares w).bind fun p => some (localMean X p j), fun j => (shares w).bind fun p => some (localVar X p j),
      Function.update (fun _ => (some 0, some 0, some 0)) 0 (colEntry X R (shares w) (0, 1))⟩, ?_, ?_⟩
    · unfold corrRow
      rw [hpairs]
      rfl
    · simp only [Function.update_self, hsh w hw]
      rfl
  have run : ∀ (c : DynMat) (X : Fin 2 → Fin 2 → ℝ) (W : Fin 2 → Fin 2 → ℝ) (ex : Exec 2), ex.Valid → c.nCols = 2 →
      weightRows ⟨false, some (c, c)⟩ ⟨(2 : ℕ), false, .Boxcar⟩ 2 2 = .ok W → (∀ i l, W i l = 1) →
      ∃ t : Fin 2 → CorrRow 2 1, gwssCorrelationRun ord ⟨false, none⟩ ⟨(2 : ℕ), false, .Boxcar⟩ c X false ex = .ok t ∧
        ∀ i, ((t i).cols 0).2.2 = corwt (rankOf ord fun l => X l 0) (rankOf ord fun l => X l 1) (fun _ => 1 / 2) := by
    intro c X W ex hex hc hW h1
    choose t ht1 ht2 using fun i => row X (rankX ord X) (W i) (h1 i)
    refine ⟨t, ?_, ht2⟩
    unfold gwssCorrelationRun
    rw [bindLocations_eq_ok.2 ⟨hc, hc, rfl⟩]
    simp only [Res.bind, lt_irrefl, if_false, escape_ok.2 hW]
    exact (correlationEx_iff hk hex).2 ht1
  obtain ⟨t, h1, h2⟩ := run (linePoints 2) tieX _ ex hex rfl hW fun _ _ => rfl
  obtain ⟨t', h1', h2'⟩ := run _ (permTable σ tieX) _ ex' hex' rfl hW' fun _ _ => rfl
  have hinj : Function.Injective fun l => tieX l 1 := fun a b h => by
    simp only [tieX, one_ne_zero, if_false, Nat.cast_inj] at h
    exact Fin.ext h
  have ho : ord (fun l => tieX l 1) = 1 := sorts_unique hinj (hord _) fun a b h => by
    simpa [tieX] using h
  have hr1 : ∀ l, rankOf ord (fun l => tieX l 1) l = (l : ℕ) + 1 := fun l => by
    rw [rankOf_eq hord, ho]; rfl
  have hr1' : ∀ l, rankOf ord (fun l => permTable σ tieX l 1) l = (σ l : ℕ) + 1 := fun l => by
    rw [show (fun l => permTable σ tieX l 1) = (fun l => tieX l 1) ∘ σ from rfl, rank_reordered hord σ hinj]
    exact hr1 (σ l)
  have hconst : (fun l => permTable σ tieX l 0) = fun l => tieX l 0 := by funext l; simp [permTable, tieX]
  set r0 := rankOf ord fun l => tieX l 0 with hr0
  have he : r0 1 - r0 0 = 1 ∨ r0 1 - r0 0 = -1 := by
    rw [hr0, rankOf_eq hord, rankOf_eq hord]
    have hne : (ord fun l => tieX l 0).symm 0 ≠ (ord fun l => tieX l 0).symm 1 := fun h => by
      have := (ord fun l => tieX l 0).symm.injective h
      exact absurd this (by decide)
    revert hne
    generalize (ord fun l => tieX l 0).symm 0 = a
    generalize (ord fun l => tieX l 0).symm 1 = b
    intro hne
    fin_cases a <;> fin_cases b <;> simp_all
  have he2 : (r0 1 - r0 0) ^ 2 = 1 := by rcases he with h | h <;> rw [h] <;> norm_num
  refine ⟨t, t', r0 1 - r0 0, h1, h1', he, fun i j => ⟨?_, ?_⟩⟩
  · rw [h2, pair_cor rfl he2 (Or.inl (by rw [hr1, hr1]; norm_num)), hr1, hr1]
    norm_num
  · rw [h2', hconst, pair_cor rfl he2 (Or.inr (by rw [hr1', hr1', s0, s1]; norm_num)), hr1', hr1', s0, s1]
    norm_num

/-! ### Principal components -/

/-- The singular values are determined by the matrix. -/
theorem svd_unique {m : ℕ} {A : Matrix (Fin m) (Fin p) ℝ} {d d' : Fin p → ℝ} {V V' : Matrix (Fin p) (Fin p) ℝ} (h : IsRightSVD A d V)
    (h' : IsRightSVD A d' V') : d = d' := by
  have key : ∀ {d : Fin p → ℝ} {V : Matrix (Fin p) (Fin p) ℝ}, IsRightSVD A d V →
      (Aᵀ * A).charpoly.roots = Finset.univ.val.map fun j => d j ^ 2 := by
    intro d V h
    have hV : V * Vᵀ = 1 := mul_eq_one_comm.1 h.orth
    have e : (diagonal fun j => d j ^ 2).charpoly = (Aᵀ * A).charpoly := by
      rw [← h.gram, transpose_mul, Matrix.mul_assoc, charpoly_mul_comm, Matrix.mul_assoc, Matrix.mul_assoc, hV, Matrix.mul_one]
    rw [← e, charpoly_diagonal]
    have := Polynomial.roots_multiset_prod_X_sub_C (Finset.univ.val.map fun j => d j ^ 2)
    rwa [Multiset.map_map] at this
  have hm := (key h).symm.trans (key h')
  have anti : ∀ {d : Fin p → ℝ}, (∀ j, 0 ≤ d j) → Antitone d → (List.ofFn fun j => d j ^ 2).Pairwise (· ≥ ·) := by
    intro d h0 ha
    rw [List.pairwise_ofFn]
    intro i j hij
    exact pow_le_pow_left₀ (h0 j) (ha hij.le) 2
  have hperm : (List.ofFn fun j => d j ^ 2).Perm (List.ofFn fun j => d' j ^ 2) := by
    rw [← Multiset.coe_eq_coe]
    have hl : ∀ f : Fin p → ℝ, ((List.ofFn f : List ℝ) : Multiset ℝ) = Finset.univ.val.map f := fun f => by
      rw [List.ofFn_eq_map, ← Multiset.map_coe]
      rfl
    rw [hl, hl]
    exact hm
  have hq := hperm.eq_of_pairwise' (anti h.nonneg h.anti) (anti h'.nonneg h'.anti)
  funext j
  have := congrFun (List.ofFn_injective hq) j
  exact (pow_left_inj₀ (h.nonneg j) (h'.nonneg j) two_ne_zero).1 this

theorem centred_reordered (σ : Equiv.Perm (Fin (n + 1))) (x : Matrix (Fin (n + 1)) (Fin p) ℝ) (w : Fin (n + 1) → ℝ) :
    centred (permRows σ x) (w ∘ σ) = permRows σ (centred x w) := by
  have hm : ∀ c, pcaMean (permRows σ x) (w ∘ σ) c = pcaMean x w c := by
    intro c
    unfold pcaMean
    simp only [permRows, Function.comp]
    rw [Equiv.sum_comp σ fun l => x l c * w l, Equiv.sum_comp σ w]
  ext l c
  simp only [centred, of_apply, hm]
  rfl

theorem gram_reordered (σ : Equiv.Perm (Fin n)) (A : Matrix (Fin n) (Fin p) ℝ) (V : Matrix (Fin p) (Fin p) ℝ) :
    (permRows σ A * V)ᵀ * (permRows σ A * V) = (A * V)ᵀ * (A * V) := by
  have e : permRows σ A * V = permRows σ (A * V) := by ext l c; rfl
  rw [e]
  ext a b
  simp only [mul_apply, transpose_apply, permRows]
  exact Equiv.sum_comp σ fun l => (∑ j, A l j * V j a) * ∑ j, A l j * V j b

theorem svd_reordered {svd : Matrix (Fin (n + 1)) (Fin p) ℝ → SvdOut p} (hsvd : ExactSVD svd) (σ : Equiv.Perm (Fin (n + 1)))
    (A : Matrix (Fin (n + 1)) (Fin p) ℝ) : (svd (permRows σ A)).d = (svd A).d := by
  have h := hsvd A
  have h' : IsRightSVD (permRows σ A) (svd A).d (svd A).V := ⟨h.nonneg, h.anti, h.orth, by rw [gram_reordered]; exact h.gram⟩
  exact svd_unique (hsvd _) h'

/-- **C143 (principal components).** Listing the observations in another order: the percentages of variance move with their observations, and the
variances reported (squares of the standard deviations) keep their proportions: all are multiplied by the same factor, which need not be 1, see
`C143_components_fails`. Loadings are determined up to sign only. -/
theorem C143_components_partial (svd : Matrix (Fin (n + 1)) (Fin p) ℝ → SvdOut p) (hsvd : ExactSVD svd) (d : CRSDistance) (b : BandwidthWeight)
    (coords coords' : DynMat) (σ : Equiv.Perm (Fin (n + 1))) (hp : PermCoords (n + 1) σ coords coords') (x : Matrix (Fin (n + 1)) (Fin p) ℝ) (K : ℕ)
    (hb : ∀ W : Fin (n + 1) → Fin (n + 1) → ℝ, weightRows ⟨d.mGeographic, some (coords, coords)⟩ b (n + 1) (n + 1) = .ok W → ∀ i, 0 < ∑ l, W i l)
    (o : PcaOut n p K) (h : gwpcaRun svd d b coords x K = .ok o) :
    ∃ o', gwpcaRun svd d b coords' (fun i => x (σ i)) K = .ok o' ∧ (∀ i j, o'.pv i j = o.pv (σ i) j) ∧
      ∃ W : Fin (n + 1) → Fin (n + 1) → ℝ, weightRows ⟨d.mGeographic, some (coords, coords)⟩ b (n + 1) (n + 1) = .ok W ∧
        ∀ i j, o'.sdev i j ^ 2 * ∑ l, W (σ (Fin.last n)) l = o.sdev (σ i) j ^ 2 * ∑ l, W (Fin.last n) l := by
  unfold gwpcaRun at h
  obtain ⟨d', hd, h⟩ := Res.bind_eq_ok'.1 h
  obtain ⟨c1, -, rfl⟩ := bindLocations_eq_ok.1 hd
  obtain ⟨W, hW, h⟩ := Res.bind_eq_ok'.1 h
  have hs : ∀ i, ∑ l, permW σ W i l = ∑ l, W (σ i) l := fun i => Equiv.sum_comp σ (W (σ i))
  have hpos := hb W hW
  set f : ℝ := (∑ l, W (Fin.last n) l) / ∑ l, W (σ (Fin.last n)) l with hf
  have hf0 : f ≠ 0 := div_ne_zero (hpos _).ne' (hpos _).ne'
  have hv : ∀ i j, pcaVariance svd (permRows σ x) (permW σ W) i j = pcaVariance svd x W (σ i) j * f := by
    intro i j
    unfold pcaVariance
    simp only [hs, show permW σ W i = W (σ i) ∘ σ from rfl, centred_reordered, svd_reordered hsvd]
    have s1 := Real.mul_self_sqrt (hpos (Fin.last n)).le
    have s2 := Real.mul_self_sqrt (hpos (σ (Fin.last n))).le
    rw [div_mul_div_comm, div_mul_div_comm, s1, s2, hf]
    have := (hpos (Fin.last n)).ne'
    field_simp
  have hv0 : ∀ i j, 0 ≤ pcaVariance svd x W i j := fun i j => mul_self_nonneg _
  have hv1 : ∀ i j, 0 ≤ pcaVariance svd (permRows σ x) (permW σ W) i j := fun i j => mul_self_nonneg _
  unfold gwpca at h
  split at h
  · cases h
  rename_i hn
  split at h
  swap
  · cases h
  rename_i hK
  split at h
  · cases h
  rename_i hbad
  push Not at hbad
  cases Res.ok.inj h
  have hbad' : ¬ ((∃ i, ∑ l, permW σ W i l = 0) ∨ ∃ i, ∑ j, pcaVariance svd (permRows σ x) (permW σ W) i j = 0) := by
    push Not
    refine ⟨fun i => by rw [hs]; exact (hpos _).ne', fun i => ?_⟩
    simp only [hv]
    rw [← Finset.sum_mul]
    exact mul_ne_zero (hbad.2 _) hf0
  have hrun : gwpcaRun svd d b coords' (fun i => x (σ i)) K = gwpca svd (permRows σ x) (permW σ W) K := by
    unfold gwpcaRun
    rw [bindLocations_eq_ok.2 ⟨hp.2.2.1.trans c1, hp.2.2.1.trans c1, rfl⟩]
    simp only [Res.bind, perm_weights hp hW]
    rfl
  rw [hrun]
  unfold gwpca
  rw [if_neg hn, dif_pos hK, if_neg hbad']
  refine ⟨_, rfl, fun i j => ?_, W, hW, fun i j => ?_⟩
  · simp only [hv]
    rw [← Finset.sum_mul]
    have := hbad.2 (σ i)
    field_simp
  · simp only
    rw [Real.sq_sqrt (hv1 _ _), Real.sq_sqrt (hv0 _ _), hv, hf, mul_assoc, div_mul_cancel₀ _ (hpos _).ne']

/-- **C143 fails for the standard deviations of components.** Three points 1 apart with values 0, 1, 2 and a box kernel that reaches the direct
neighbours: the squared standard deviation reported for the middle point is 1, and 2/3 if that point is listed last. -/
theorem C143_components_fails {svd : Matrix (Fin 3) (Fin 1) ℝ → SvdOut 1} (hsvd : ExactSVD svd) (par : Option (DynMat × DynMat)) :
    ∃ o o' : PcaOut 2 1 1, gwpcaRun svd ⟨false, par⟩ ⟨3 / 2, false, .Boxcar⟩ (lineCoords 1) lineX 1 = .ok o ∧
      gwpcaRun svd ⟨false, par⟩ ⟨3 / 2, false, .Boxcar⟩ (reorderedCoords (Equiv.swap (1 : Fin 3) 2) (lineCoords 1)) (fun i => lineX (Equiv.swap 1 2 i)) 1 =
        .ok o' ∧ o.sdev 1 0 ^ 2 = 1 ∧ o'.sdev 2 0 ^ 2 = 2 / 3 := by
  obtain ⟨o, ho, -, h1⟩ := C117_sdev_wrong hsvd par
  have hb : UsableRadius (m := 3) (n := 3) ⟨3 / 2, false, .Boxcar⟩ fun i j => |(1 : ℝ)| * |((j : ℕ) : ℝ) - (i : ℕ)| :=
    usable_fixed (by norm_num) _ _
  have hc : FitsData (lineCoords 1) 3 := ⟨rfl, rfl⟩
  obtain ⟨W1, d', g1, -, g3, g4, g5⟩ := summary_weights (par := par) hc (line_mapDistance 1) hb .serial
  cases kernelWeight_unique lineW_kernel g3
  obtain ⟨-, -, rfl⟩ := bindLocations_eq_ok.1 g1
  obtain ⟨o', ho', -, W, hW, h2⟩ := C143_components_partial svd hsvd ⟨false, par⟩ ⟨3 / 2, false, .Boxcar⟩ (lineCoords 1) _ (Equiv.swap (1 : Fin 3) 2)
    (reorderedCoords_perm (n := 3) _ rfl) lineX 1 (fun W hW i => by cases Res.ok.inj (hW.symm.trans g5); exact (g4 i).sum_pos) o ho
  cases Res.ok.inj (hW.symm.trans g5)
  refine ⟨o, o', ho, ho', h1, ?_⟩
  have := h2 2 0
  rw [show (Fin.last 2 : Fin 3) = 2 from rfl, Equiv.swap_apply_right, h1] at this
  have e1 : ∑ l, lineW 2 l = 2 := by rw [Fin.sum_univ_three]; simp [lineW]; norm_num
  have e2 : ∑ l, lineW 1 l = 3 := by norm_num [lineW, Fin.sum_univ_three]
  rw [e1, e2] at this
  linarith

/-! ### Runs to which the theorems apply -/

/-- C143, ridge: three points on a line, ridge parameter 1, listed backwards. -/
example : ∃ sv : Matrix (Fin 3) (Fin 2) ℝ → ℝ × ℝ, ExactSV sv ∧
    ∃ r r', lcrRunIn sv ⟨1, false, 30⟩ .serial ⟨false, none⟩ ⟨1, false, .Gaussian⟩ (lineCoords 2) exX (fun l => (l.val : ℝ) ^ 2) = .ok r ∧
      lcrRunIn sv ⟨1, false, 30⟩ (moreThreads 3) ⟨false, none⟩ ⟨1, false, .Gaussian⟩ (reorderedCoords (Equiv.swap (0 : Fin 3) 2) (lineCoords 2))
        (fun i => exX (Equiv.swap 0 2 i)) (fun i => ((Equiv.swap (0 : Fin 3) 2 i).val : ℝ) ^ 2) = .ok r' ∧ RidgeReordered (Equiv.swap 0 2) r r' := by
  obtain ⟨sv, hsv⟩ := exactSV_exists (n := 3) (k := 2) two_pos
  refine ⟨sv, hsv, ?_⟩
  have hW : weightRows ⟨false, some (lineCoords 2, lineCoords 2)⟩ ⟨1, false, .Gaussian⟩ 3 3 =
      .ok (fun i l : Fin 3 => kernelFormula .Gaussian 1 (plane ((lineCoords 2).val i) ((lineCoords 2).val l))) :=
    (weights_fixed one_pos).2 fun i => ⟨i.isLt, rfl, rfl⟩
  obtain ⟨q, hq⟩ := ex_lcr_pos sv 1 one_pos
    (fun i l : Fin 3 => kernelFormula .Gaussian 1 (plane ((lineCoords 2).val i) ((lineCoords 2).val l)))
    (fun i l => Real.exp_pos _)
  obtain ⟨r, hr⟩ : ∃ r, lcrRun sv ⟨1, false, 30⟩ ⟨false, none⟩ ⟨1, false, .Gaussian⟩ (lineCoords 2) exX (fun l => (l.val : ℝ) ^ 2) = .ok r := by
    unfold lcrRun
    rw [bindLocations_eq_ok.2 ⟨rfl, rfl, rfl⟩, Res.bind]
    simp only
    rw [hW]
    simp only [Res.bind, lcrFit]
    rw [show (fun _ : ℕ => false) = NoStop from rfl, hq]
    exact ⟨_, rfl⟩
  have hr := ((C103_modes_agree sv ⟨1, false, 30⟩ (fun _ => .serial) (fun _ => trivial) .serial trivial _ _ _ _ _).1 r).2 hr
  obtain ⟨r', h', hf⟩ := (C143_ridge sv hsv ⟨1, false, 30⟩ (fun _ => .serial) (fun _ => .serial) (fun _ => trivial) (fun _ => trivial) .serial (moreThreads 3)
    trivial moreThreads_valid _ _ _ _ (Equiv.swap 0 2) (reorderedCoords_perm (n := 3) _ rfl) _ _).1 r hr
  exact ⟨r, r', hr, h', hf⟩

/-- C143, averages: five points on a line with distinct values and quantiles requested, two of them exchanged. -/
example (ord : (Fin 5 → ℝ) → Equiv.Perm (Fin 5)) (hord : ∀ x, Sorts x (ord x)) : ∃ t t' : AvgTable 5 2,
    gwssAverageRun ord ⟨false, none⟩ ⟨(5 : ℕ), false, .Boxcar⟩ (linePoints 5) (fun l j => (l.val : ℝ) + j.val) true .serial = .ok t ∧
    gwssAverageRun ord ⟨false, none⟩ ⟨(5 : ℕ), false, .Boxcar⟩ (reorderedCoords (Equiv.swap (0 : Fin 5) 3) (linePoints 5))
      (fun l j => ((Equiv.swap (0 : Fin 5) 3 l).val : ℝ) + j.val) true (moreThreads 5) = .ok t' ∧
    ∀ i, t'.rows i = t.rows (Equiv.swap 0 3 i) ∧ t'.lcv i = t.lcv (Equiv.swap 0 3 i) := by
  have hb : UsableRadius (m := 5) (n := 5) ⟨(5 : ℕ), false, .Boxcar⟩ fun i l => plane ((linePoints 5).val i) ((linePoints 5).val l) :=
    usable_fixed (by norm_num) _ _
  have hd : IsMapDistance (m := 5) (n := 5) false (linePoints 5) (linePoints 5) fun i l => plane ((linePoints 5).val i) ((linePoints 5).val l) :=
    fun _ _ => rfl
  obtain ⟨W, d', g1, -, g3, -, g5⟩ := summary_weights (par := none) ⟨rfl, rfl⟩ hd hb .serial
  obtain ⟨-, -, rfl⟩ := bindLocations_eq_ok.1 g1
  cases Res.ok.inj (g5.symm.trans (linePoints_rows (n := 5) (by norm_num)))
  obtain ⟨t, h, -⟩ := (C115_quantiles (ord := ord) (X := fun (l : Fin 5) (j : Fin 2) => (l.val : ℝ) + j.val) (par := none) hord ⟨rfl, rfl⟩ hd hb
    (ex := .serial) trivial g3).1 fun i j => by norm_num
  obtain ⟨t', h', hf⟩ := C143_average ord ⟨false, none⟩ _ _ _ (Equiv.swap 0 3) (reorderedCoords_perm (n := 5) _ rfl) _ true
    (fun _ => ⟨hord, fun j a b hab => Fin.ext (by simpa using hab)⟩) .serial (moreThreads 5) trivial moreThreads_valid t h
  exact ⟨t, t', h, h', hf⟩

/-- C143, correlations: three points on a line with distinct values, listed backwards. -/
example (ord : (Fin 3 → ℝ) → Equiv.Perm (Fin 3)) (hord : ∀ x, Sorts x (ord x)) : ∃ t t' : Fin 3 → CorrRow 2 (corrCols 2 false),
    gwssCorrelationRun ord ⟨false, none⟩ ⟨1, false, .Gaussian⟩ (lineCoords 1) (fun l j => (l.val : ℝ) ^ (j.val + 1)) false .serial = .ok t ∧
    gwssCorrelationRun ord ⟨false, none⟩ ⟨1, false, .Gaussian⟩ (reorderedCoords (Equiv.swap (0 : Fin 3) 2) (lineCoords 1))
      (fun l j => ((Equiv.swap (0 : Fin 3) 2 l).val : ℝ) ^ (j.val + 1)) false (moreThreads 3) = .ok t' ∧
    ∀ i, t' i = t (Equiv.swap 0 2 i) := by
  obtain ⟨t, -, -, -, h, -⟩ := C115_correlation (ord := ord) (X := fun (l : Fin 3) (j : Fin 2) => (l.val : ℝ) ^ (j.val + 1)) (par := none) hord le_rfl
    ⟨rfl, rfl⟩ (line_mapDistance 1) (usable_fixed (bw := 1) one_pos .Gaussian _) false (ex := .serial) trivial
  obtain ⟨t', h', -, hf⟩ := C143_correlation ord ⟨false, none⟩ _ _ _ (Equiv.swap 0 2) (reorderedCoords_perm (n := 3) _ rfl) _ false .serial (moreThreads 3)
    trivial moreThreads_valid t h
  refine ⟨t, t', h, h', hf hord fun j a b hab => Fin.ext ?_⟩
  exact_mod_cast (pow_left_inj₀ (Nat.cast_nonneg (α := ℝ) a.val) (Nat.cast_nonneg b.val) (Nat.succ_ne_zero j.val)).1 hab

/-- C143, components: the run of `C143_components_fails` with an exact singular value decomposition, and percentages after the exchange. -/
example : ∃ svd : Matrix (Fin 3) (Fin 1) ℝ → SvdOut 1, ExactSVD svd ∧ ∃ o o' : PcaOut 2 1 1,
    gwpcaRun svd ⟨false, none⟩ ⟨3 / 2, false, .Boxcar⟩ (lineCoords 1) lineX 1 = .ok o ∧
    gwpcaRun svd ⟨false, none⟩ ⟨3 / 2, false, .Boxcar⟩ (reorderedCoords (Equiv.swap (1 : Fin 3) 2) (lineCoords 1)) (fun i => lineX (Equiv.swap 1 2 i)) 1 =
      .ok o' ∧ o.sdev 1 0 ≠ o'.sdev 2 0 := by
  obtain ⟨svd, hsvd⟩ := exactSVD_exists (n := 2) (p := 1)
  obtain ⟨o, o', h, h', e, e'⟩ := C143_components_fails hsvd none
  exact ⟨svd, hsvd, o, o', h, h', fun hc => by rw [hc, e'] at e; norm_num at e⟩

end Verif.Props

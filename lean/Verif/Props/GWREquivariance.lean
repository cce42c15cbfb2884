import Verif.Props.GWRRun

/-! # C51, C52: reordering observations, moving coordinates, validation -/

namespace Verif.Props
open Verif Verif.Model Verif.Spec Matrix Classical

variable {n k m : ℕ}

/-! ## C51 -/

/-- Rows `σ 0, σ 1, …` of a design. -/
def permRows (σ : Equiv.Perm (Fin n)) (x : Matrix (Fin n) (Fin k) ℝ) : Matrix (Fin n) (Fin k) ℝ := fun i => x (σ i)

theorem perm_xtw (σ : Equiv.Perm (Fin n)) (x : Matrix (Fin n) (Fin k) ℝ) (w : Fin n → ℝ) (j : Fin k) (l : Fin n) :
    xtw (permRows σ x) (w ∘ σ) j l = xtw x w j (σ l) := rfl

theorem perm_xtwx (σ : Equiv.Perm (Fin n)) (x : Matrix (Fin n) (Fin k) ℝ) (w : Fin n → ℝ) :
    xtwx (permRows σ x) (w ∘ σ) = xtwx x w := by
  ext a b
  rw [xtwx_apply, xtwx_apply]
  exact Equiv.sum_comp σ (fun l => x l a * w l * x l b)

theorem perm_xtwy (σ : Equiv.Perm (Fin n)) (x : Matrix (Fin n) (Fin k) ℝ) (y w : Fin n → ℝ) :
    xtw (permRows σ x) (w ∘ σ) *ᵥ (y ∘ σ) = xtw x w *ᵥ y := by
  funext j
  exact Equiv.sum_comp σ (fun l => xtw x w j l * y l)

theorem perm_localBeta (σ : Equiv.Perm (Fin n)) (x : Matrix (Fin n) (Fin k) ℝ) (y w : Fin n → ℝ) :
    localBeta (permRows σ x) (y ∘ σ) (w ∘ σ) = localBeta x y w := by
  unfold localBeta
  rw [perm_xtwx, perm_xtwy]

/-- Reordered weights: row and column `σ i`. -/
def permW (σ : Equiv.Perm (Fin n)) (W : Fin n → Fin n → ℝ) : Fin n → Fin n → ℝ := fun i => W (σ i) ∘ σ

theorem perm_fitAt (σ : Equiv.Perm (Fin n)) (x : Matrix (Fin n) (Fin k) ℝ) (y : Fin n → ℝ) (W : Fin n → Fin n → ℝ) (i : Fin n) :
    (fitAt (permRows σ x) (y ∘ σ) (permW σ W) i).beta = (fitAt x y W (σ i)).beta ∧
    (∀ j l, (fitAt (permRows σ x) (y ∘ σ) (permW σ W) i).ci j l = (fitAt x y W (σ i)).ci j (σ l)) ∧
    (∀ l, (fitAt (permRows σ x) (y ∘ σ) (permW σ W) i).si l = (fitAt x y W (σ i)).si (σ l)) := by
  have hci : ∀ j l, ((xtwx (permRows σ x) (permW σ W i))⁻¹ * xtw (permRows σ x) (permW σ W i) : Matrix _ _ ℝ) j l =
      ((xtwx x (W (σ i)))⁻¹ * xtw x (W (σ i)) : Matrix _ _ ℝ) j (σ l) := by
    intro j l
    rw [mul_apply, mul_apply]
    unfold permW
    rw [perm_xtwx]
    rfl
  refine ⟨?_, hci, fun l => ?_⟩
  · simp only [fitAt, permW]
    rw [perm_xtwx, perm_xtwy]
  · simp only [fitAt, vecMul, dotProduct]
    exact Finset.sum_congr rfl fun j _ => by rw [hci]; rfl

theorem perm_fitted (σ : Equiv.Perm (Fin n)) (x betas betas' : Matrix (Fin n) (Fin k) ℝ) (h : ∀ i, betas' i = betas (σ i))
    (i : Fin n) : fitted (permRows σ x) betas' i = fitted x betas (σ i) := by
  unfold fitted
  rw [h]
  rfl

theorem perm_rss (σ : Equiv.Perm (Fin n)) (x betas betas' : Matrix (Fin n) (Fin k) ℝ) (y : Fin n → ℝ)
    (h : ∀ i, betas' i = betas (σ i)) : rss (permRows σ x) (y ∘ σ) betas' = rss x y betas := by
  unfold rss
  rw [← Equiv.sum_comp σ (fun i => (y i - fitted x betas i) * (y i - fitted x betas i))]
  exact Finset.sum_congr rfl fun i _ => by rw [perm_fitted σ x betas betas' h]; rfl

/-- The core fit under reordering. -/
theorem perm_fit (σ : Equiv.Perm (Fin n)) (x : Matrix (Fin n) (Fin k) ℝ) (y : Fin n → ℝ) (W : Fin n → Fin n → ℝ) (sS sC : Bool)
    (a : FitAcc n k) (h : fitCoreSerial x y W 0 n sS sC NoStop = .ok (a, false)) :
    ∃ a', fitCoreSerial (permRows σ x) (y ∘ σ) (permW σ W) 0 n sS sC NoStop = .ok (a', false) ∧
      (∀ i, a'.betas i = a.betas (σ i)) ∧ (∀ i, a'.se i = a.se (σ i)) ∧ a'.shat = a.shat ∧
      (∀ i, a'.qdiag i = a.qdiag (σ i)) := by
  obtain ⟨hp, hc⟩ := fitCoreSerial_ok h
  obtain ⟨a', h', hc'⟩ := fit_of_posDef (permRows σ x) (y ∘ σ) (permW σ W) 0 n sS sC (fun i _ _ => by
    unfold permW; rw [perm_xtwx]; exact hp (σ i) (Nat.zero_le _) (σ i).isLt)
  refine ⟨a', h', fun i => ?_, fun i => ?_, ?_, fun l => ?_⟩
  · rw [hc'.betas i (Nat.zero_le _) i.isLt, hc.betas _ (Nat.zero_le _) (σ i).isLt]
    exact (perm_fitAt σ x y W i).1
  · rw [hc'.se i (Nat.zero_le _) i.isLt, hc.se _ (Nat.zero_le _) (σ i).isLt]
    funext j
    unfold seRow
    rw [← Equiv.sum_comp σ (fun l => (fitAt x y W (σ i)).ci j l * (fitAt x y W (σ i)).ci j l)]
    exact Finset.sum_congr rfl fun l _ => by rw [(perm_fitAt σ x y W i).2.1]
  · rw [hc'.shat, hc.shat, sum_workRange, sum_workRange]
    rw [← Equiv.sum_comp σ (fun i => shatRow i (fitAt x y W i))]
    refine Finset.sum_congr rfl fun i _ => ?_
    unfold shatRow
    have hs := (perm_fitAt σ x y W i).2.2
    rw [hs, ← Equiv.sum_comp σ (fun l => (fitAt x y W (σ i)).si l * (fitAt x y W (σ i)).si l)]
    congr 2
    exact Finset.sum_congr rfl fun l _ => by rw [hs]
  · rw [hc'.qdiag, hc.qdiag, sum_workRange, sum_workRange, Finset.sum_apply, Finset.sum_apply]
    rw [← Equiv.sum_comp σ (fun i => qRow i (fitAt x y W i) (σ l))]
    refine Finset.sum_congr rfl fun i _ => ?_
    have hs := (perm_fitAt σ x y W i).2.2
    unfold qRow
    simp only [Function.update_apply, hs, EmbeddingLike.apply_eq_iff_eq]

/-- Coordinates listed in another order. -/
def PermCoords (n : ℕ) (σ : Equiv.Perm (Fin n)) (coords coords' : DynMat) : Prop :=
  coords.nRows = n ∧ coords'.nRows = n ∧ coords'.nCols = coords.nCols ∧ ∀ i : Fin n, coords'.val i = coords.val (σ i)

theorem PermCoords.symm {σ : Equiv.Perm (Fin n)} {c c' : DynMat} (h : PermCoords n σ c c') : PermCoords n σ.symm c' c :=
  ⟨h.2.1, h.1, h.2.2.1.symm, fun i => by rw [h.2.2.2]; simp⟩

theorem perm_weights {σ : Equiv.Perm (Fin n)} {c c' : DynMat} (hp : PermCoords n σ c c') {g : Bool} {b : BandwidthWeight}
    {W : Fin n → Fin n → ℝ} (h : weightRows ⟨g, some (c, c)⟩ b n n = .ok W) :
    weightRows ⟨g, some (c', c')⟩ b n n = .ok (permW σ W) := by
  rw [weightRows_eq_ok] at h ⊢
  intro i
  obtain ⟨-, -, dist, h1, h2⟩ := h (σ i)
  refine ⟨by rw [hp.2.1]; exact i.isLt, hp.2.1, dist ∘ σ, fun j => ?_, C05_weight_equivariant b dist _ σ h2⟩
  rw [hp.2.2.2, hp.2.2.2]
  exact h1 (σ j)

theorem perm_diagnostic (σ : Equiv.Perm (Fin n)) (x betas betas' : Matrix (Fin n) (Fin k) ℝ) (y : Fin n → ℝ) (shat : Fin 2 → ℝ)
    (h : ∀ i, betas' i = betas (σ i)) :
    calcDiagnostic (permRows σ x) (y ∘ σ) betas' shat = calcDiagnostic x y betas shat := by
  have hm : meanVec (y ∘ σ) = meanVec y := by
    unfold meanVec
    congr 1
    exact Equiv.sum_comp σ y
  have hy : ∑ i, ((y ∘ σ) i - meanVec (y ∘ σ)) * ((y ∘ σ) i - meanVec (y ∘ σ)) = ∑ i, (y i - meanVec y) * (y i - meanVec y) := by
    rw [hm]
    exact Equiv.sum_comp σ (fun i => (y i - meanVec y) * (y i - meanVec y))
  simp only [calcDiagnostic]
  rw [perm_rss σ x betas betas' y h, hy]

/-- **C51 (reordering).** Listing the observations (coordinates, covariates, responses) in another order: the fit succeeds as
well, coefficient rows, their standard errors, fitted values and the Q diagonal are reordered the same way, and all diagnostics
are unchanged. For planar and geographic coordinates, every kernel, fixed and adaptive. -/
theorem C51_reordering (d : CRSDistance) (b : BandwidthWeight) (coords coords' : DynMat) (σ : Equiv.Perm (Fin n))
    (hp : PermCoords n σ coords coords') (x : Matrix (Fin n) (Fin k) ℝ) (y : Fin n → ℝ) (sS sC : Bool) (a : FitAcc n k)
    (h : gwrFit d b coords x y sS sC NoStop = .ok (a, false)) :
    ∃ a', gwrFit d b coords' (fun i => x (σ i)) (fun i => y (σ i)) sS sC NoStop = .ok (a', false) ∧
      (∀ i, a'.betas i = a.betas (σ i)) ∧
      (∀ i, fitted (fun i => x (σ i)) a'.betas i = fitted x a.betas (σ i)) ∧
      (∀ i j, betasSE (fun i => x (σ i)) (fun i => y (σ i)) a' i j = betasSE x y a (σ i) j) ∧
      (∀ i, a'.qdiag i = a.qdiag (σ i)) ∧
      calcDiagnostic (fun i => x (σ i)) (fun i => y (σ i)) a'.betas a'.shat = calcDiagnostic x y a.betas a.shat := by
  unfold gwrFit at h
  rw [Res.bind_eq_ok'] at h
  obtain ⟨d', h1, h⟩ := h
  rw [Res.bind_eq_ok'] at h
  obtain ⟨W, h2, h⟩ := h
  obtain ⟨c1, -, rfl⟩ := bindLocations_eq_ok.1 h1
  obtain ⟨a', ha, e1, e2, e3, e4⟩ := perm_fit σ x y W sS sC a h
  refine ⟨a', ?_, e1, perm_fitted σ x a.betas a'.betas e1, fun i j => ?_, e4, ?_⟩
  · unfold gwrFit
    rw [bindLocations_eq_ok.2 ⟨hp.2.2.1.trans c1, hp.2.2.1.trans c1, rfl⟩, Res.bind, perm_weights hp h2, Res.bind]
    exact ha
  · have hr := perm_rss σ x a.betas a'.betas y e1
    simp only [betasSE]
    rw [e2, e3]
    have : rss (fun i => x (σ i)) (fun i => y (σ i)) a'.betas = rss x y a.betas := hr
    rw [this]
  · rw [e3]; exact perm_diagnostic σ x a.betas a'.betas y a.shat e1

/-- A non-trivial reordering of the points of the line. -/
example : ∃ c', PermCoords 3 (Equiv.swap 0 2) (lineCoords 10) c' ∧ c'.val 0 0 = 20 := by
  refine ⟨⟨3, 2, fun i k => if k = 0 then 10 * (2 - (i : ℝ)) else 0⟩, ⟨rfl, rfl, rfl, fun i => ?_⟩, by norm_num⟩
  funext j
  fin_cases i
  · simp [lineCoords]
  · have : (Equiv.swap (0 : Fin 3) 2) 1 = 1 := by decide
    simp only [Fin.mk_one, this, lineCoords]
    norm_num
  · simp [lineCoords]

theorem permW_cv (σ : Equiv.Perm (Fin n)) (W : Fin n → Fin n → ℝ) (i : Fin n) :
    cvWeight (permW σ W) i = cvWeight W (σ i) ∘ σ := by
  funext l
  simp only [cvWeight, permW, Function.update_apply, Function.comp, EmbeddingLike.apply_eq_iff_eq]

/-- The value of a criterion with weights `W`. -/
noncomputable def critValue (cr : Crit) (x : Matrix (Fin n) (Fin k) ℝ) (y : Fin n → ℝ) (W : Fin n → Fin n → ℝ) : ℝ :=
  match cr with
  | .CV => criterionCV x y false (fitCoreCVSerial x y W 0 n (fun _ => false))
  | .AIC => criterionAIC x y false (fitCoreSHatSerial x y W 0 n (fun _ => false))

theorem perm_critValue (σ : Equiv.Perm (Fin n)) (cr : Crit) (x : Matrix (Fin n) (Fin k) ℝ) (y : Fin n → ℝ) (W : Fin n → Fin n → ℝ) :
    critValue cr (permRows σ x) (y ∘ σ) (permW σ W) = critValue cr x y W := by
  unfold critValue
  cases cr with
  | CV =>
    simp only
    have hg : ∀ i, localBeta (permRows σ x) (y ∘ σ) (cvWeight (permW σ W) i) = localBeta x y (cvWeight W (σ i)) := by
      intro i; rw [permW_cv, perm_localBeta]
    by_cases hall : ∀ i, ∃ r, localBeta x y (cvWeight W i) = .ok r
    · choose r hr using hall
      have e : fitCoreCVSerial x y W 0 n NoStop = _ := serialFor_ok r _ 0 _ (fun _ _ => rfl) (fun i _ => hr i)
      have e' : fitCoreCVSerial (permRows σ x) (y ∘ σ) (permW σ W) 0 n NoStop = _ :=
        serialFor_ok (fun i => r (σ i)) _ 0 _ (fun _ _ => rfl) (fun i _ => (hg i).trans (hr (σ i)))
      have b1 := (betaLoop_ok (nodup_workRange n 0 n) e).1
      have b2 := (betaLoop_ok (nodup_workRange n 0 n) e').1
      have m : ∀ i : Fin n, i ∈ workRange n 0 n := fun i => mem_workRange.2 ⟨Nat.zero_le _, i.isLt⟩
      have hb : ∀ i, ((workRange n 0 n).foldl (fun s i => setRow i (r (σ i)) s) (0 : Matrix (Fin n) (Fin k) ℝ)) i =
          ((workRange n 0 n).foldl (fun s i => setRow i (r i) s) (0 : Matrix (Fin n) (Fin k) ℝ)) (σ i) := fun i =>
        Res.ok.inj (((b2 i (m i)).symm.trans (hg i)).trans (b1 (σ i) (m _)))
      have e0 : fitCoreCVSerial x y W 0 n (fun _ => false) = _ := e
      have e0' : fitCoreCVSerial (permRows σ x) (y ∘ σ) (permW σ W) 0 n (fun _ => false) = _ := e'
      rw [e0, e0']
      simp only [criterionCV, and_self, if_true]
      rw [perm_rss σ x _ _ y hb]
    · push Not at hall
      obtain ⟨i, hi⟩ := hall
      have t : fitCoreCVSerial x y W 0 n (fun _ => false) = .throw .singular :=
        serialFor_fail (fun i => localBeta_cases _ _ _) _ 0 _ (fun _ _ => rfl)
          ⟨i, mem_workRange.2 ⟨Nat.zero_le _, i.isLt⟩, (localBeta_cases _ _ _).resolve_left (fun ⟨r, hr⟩ => hi r hr)⟩
      have t' : fitCoreCVSerial (permRows σ x) (y ∘ σ) (permW σ W) 0 n (fun _ => false) = .throw .singular :=
        serialFor_fail (fun i => localBeta_cases _ _ _) _ 0 _ (fun _ _ => rfl)
          ⟨σ.symm i, mem_workRange.2 ⟨Nat.zero_le _, Fin.isLt _⟩, by
            rw [hg, Equiv.apply_symm_apply]
            exact (localBeta_cases _ _ _).resolve_left (fun ⟨r, hr⟩ => hi r hr)⟩
      rw [t, t']
      rfl
  | AIC =>
    simp only
    by_cases hall : ∀ i, (xtwx x (W i)).PosDef
    · have hall' : ∀ i, (xtwx (permRows σ x) (permW σ W i)).PosDef := fun i => by
        unfold permW; rw [perm_xtwx]; exact hall _
      have key : ∀ (x : Matrix (Fin n) (Fin k) ℝ) (y : Fin n → ℝ) (W : Fin n → Fin n → ℝ) (hall : ∀ i, (xtwx x (W i)).PosDef)
          (a : FitAcc n k), fitCoreSerial x y W 0 n true true NoStop = .ok (a, false) →
          fitCoreSHatSerial x y W 0 n (fun _ => false) = .ok ((a.betas, a.shat), false) := by
        intro x y W hall a ha
        have hr : ∀ i ∈ workRange n 0 n, localFit x y (W i) (x i) = .ok (fitAt x y W i) := fun i _ => localFit_fitAt (hall i)
        have e : fitCoreSHatSerial x y W 0 n (fun _ => false) = _ := serialFor_ok (fitAt x y W) _ 0 _ (fun _ _ => rfl) hr
        have ha' := serialFor_eq_fold _ _ _ _ ha (fitAt x y W) hr
        rw [e, ha']
        have hf : ∀ (l : List (Fin n)) (p : Matrix (Fin n) (Fin k) ℝ × (Fin 2 → ℝ)) (q : FitAcc n k), p = (q.betas, q.shat) →
            l.foldl (fun s i => shatUpd i (fitAt x y W i) s) p =
              ((l.foldl (fun s i => fitUpd 0 true true i (fitAt x y W i) s) q).betas,
               (l.foldl (fun s i => fitUpd 0 true true i (fitAt x y W i) s) q).shat) := by
          intro l
          induction l with
          | nil => intro p q h; exact h
          | cons i l ih =>
            intro p q h
            rw [List.foldl_cons, List.foldl_cons]
            exact ih _ _ (by rw [h]; rfl)
        exact congrArg (fun t => Res.ok (t, false)) (hf _ _ FitAcc.zero rfl)
      obtain ⟨a, ha, -⟩ := fit_of_posDef x y W 0 n true true (fun i _ _ => hall i)
      obtain ⟨a', ha', e1, -, e3, -⟩ := perm_fit σ x y W true true a ha
      rw [key x y W hall a ha, key _ _ _ hall' a' ha']
      simp only [criterionAIC]
      have : aicc (permRows σ x) (y ∘ σ) a'.betas (a'.shat 0) = aicc x y a.betas (a.shat 0) := by
        unfold aicc
        rw [perm_rss σ x _ _ y e1, e3]
      rw [this]
    · push Not at hall
      obtain ⟨i, hi⟩ := hall
      have t : fitCoreSHatSerial x y W 0 n (fun _ => false) = .throw .singular :=
        serialFor_fail (fun i => localFit_cases _ _ _ _) _ 0 _ (fun _ _ => rfl)
          ⟨i, mem_workRange.2 ⟨Nat.zero_le _, i.isLt⟩,
            (localFit_cases _ _ _ _).resolve_left (fun ⟨r, hr⟩ => hi (localFit_eq_ok.1 hr).1)⟩
      have t' : fitCoreSHatSerial (permRows σ x) (y ∘ σ) (permW σ W) 0 n (fun _ => false) = .throw .singular :=
        serialFor_fail (fun i => localFit_cases _ _ _ _) _ 0 _ (fun _ _ => rfl)
          ⟨σ.symm i, mem_workRange.2 ⟨Nat.zero_le _, Fin.isLt _⟩,
            (localFit_cases _ _ _ _).resolve_left (fun ⟨r, hr⟩ => hi (by
              have := (localFit_eq_ok.1 hr).1
              unfold permW at this
              rw [perm_xtwx, Equiv.apply_symm_apply] at this
              exact this))⟩
      rw [t, t']
      rfl

/-- A criterion that is finite before reordering has the same value afterwards. -/
theorem perm_criterion_ok {σ : Equiv.Perm (Fin n)} {c c' : DynMat} (hp : PermCoords n σ c c') (g : Bool) (cr : Crit)
    (x : Matrix (Fin n) (Fin k) ℝ) (y : Fin n → ℝ) (b : BandwidthWeight) (W : Fin n → Fin n → ℝ)
    (hW : weightRows ⟨g, some (c, c)⟩ b n n = .ok W) :
    gwrCriterion cr ⟨g, some (c', c')⟩ (permRows σ x) (y ∘ σ) b = gwrCriterion cr ⟨g, some (c, c)⟩ x y b := by
  unfold gwrCriterion
  rw [hW, perm_weights hp hW]
  exact perm_critValue σ cr x y W

/-- **C51 (reordering and selection).** The bandwidth criterion of every candidate is the same number whatever the order of the
observations, so with given bounds the automatic search makes the same calls and returns the same bandwidth. -/
theorem C51_reordering_selection (cr : Crit) (g : Bool) (b0 : BandwidthWeight) (coords coords' : DynMat) (σ : Equiv.Perm (Fin n))
    (hp : PermCoords n σ coords coords') (lower upper : ℝ) (x : Matrix (Fin n) (Fin k) ℝ) (y : Fin n → ℝ) :
    (∀ b, gwrCriterion cr ⟨g, some (coords', coords')⟩ (fun i => x (σ i)) (fun i => y (σ i)) b =
      gwrCriterion cr ⟨g, some (coords, coords)⟩ x y b) ∧
    gwrSelectBandwidth cr ⟨g, some (coords', coords')⟩ b0 (some lower) (some upper) (fun i => x (σ i)) (fun i => y (σ i)) =
      gwrSelectBandwidth cr ⟨g, some (coords, coords)⟩ b0 (some lower) (some upper) x y := by
  have key : ∀ b, gwrCriterion cr ⟨g, some (coords', coords')⟩ (permRows σ x) (y ∘ σ) b =
      gwrCriterion cr ⟨g, some (coords, coords)⟩ x y b := by
    intro b
    by_cases hW : ∃ W : Fin n → Fin n → ℝ, weightRows ⟨g, some (coords, coords)⟩ b n n = .ok W
    · obtain ⟨W, hW⟩ := hW
      exact perm_criterion_ok hp g cr x y b W hW
    · have hW' : ¬ ∃ W : Fin n → Fin n → ℝ, weightRows ⟨g, some (coords', coords')⟩ b n n = .ok W := by
        rintro ⟨W, h⟩
        exact hW ⟨_, perm_weights hp.symm h⟩
      have bad : ∀ (c : DynMat) (x : Matrix (Fin n) (Fin k) ℝ) (y : Fin n → ℝ),
          (¬ ∃ W : Fin n → Fin n → ℝ, weightRows ⟨g, some (c, c)⟩ b n n = .ok W) →
          gwrCriterion cr ⟨g, some (c, c)⟩ x y b = dblMax := by
        intro c x y h
        unfold gwrCriterion
        split
        · rename_i W hW; exact absurd ⟨W, hW⟩ h
        · rfl
      rw [bad _ _ _ hW, bad _ _ _ hW']
  refine ⟨key, ?_⟩
  have hf : (fun (_ : ℕ) b => (true, gwrCriterion cr ⟨g, some (coords', coords')⟩ (fun i => x (σ i)) (fun i => y (σ i)) b)) =
      fun (_ : ℕ) b => (true, gwrCriterion cr ⟨g, some (coords, coords)⟩ x y b) := by
    funext _ b
    exact congrArg (Prod.mk true) (key b)
  simp only [gwrSelectBandwidth, Res.bind]
  rw [hf]

/-- **C51 (rigid motions).** Rotating by any angle and translating planar coordinates changes nothing at all: not the fit, not
predictions (moving the prediction locations too), not the automatically selected bandwidth and the fit with it. -/
theorem C51_rigid_motion (cr : Crit) (d : CRSDistance) (hd : d.mGeographic = false) (b : BandwidthWeight)
    (coords coords' loc loc' : DynMat) (θ tx ty : ℝ)
    (hc : coords'.nRows = coords.nRows ∧ coords'.nCols = coords.nCols ∧ ∀ i, coords'.val i = rigid θ tx ty (coords.val i))
    (hl : loc'.nRows = loc.nRows ∧ loc'.nCols = loc.nCols ∧ ∀ i, loc'.val i = rigid θ tx ty (loc.val i))
    (x : Matrix (Fin n) (Fin k) ℝ) (y : Fin n → ℝ) (sS sC : Bool) (stop : ℕ → Bool) (lower upper : Option ℝ) :
    gwrFit d b coords' x y sS sC stop = gwrFit d b coords x y sS sC stop ∧
    gwrPredict d b loc' coords' m x y stop = gwrPredict d b loc coords m x y stop ∧
    gwrAutoFit cr d b lower upper coords' x y sS sC = gwrAutoFit cr d b lower upper coords x y sS sC := by
  have hw : ∀ (l l' : DynMat) (b : BandwidthWeight) (m : ℕ), l'.nRows = l.nRows → (∀ i, l'.val i = rigid θ tx ty (l.val i)) →
      weightRows ⟨false, some (l', coords')⟩ b n m = weightRows ⟨false, some (l, coords)⟩ b n m := by
    intro l l' b m h1 h2
    unfold weightRows
    congr 1
    funext i
    unfold weightVector
    rw [C07_rigid_invariant l coords l' coords' θ tx ty ⟨h1, h2⟩ ⟨hc.1, hc.2.2⟩]
  have hbind : ∀ (l l' : DynMat) (α : Type) (F F' : CRSDistance → Res α), l'.nCols = l.nCols →
      F' ⟨false, some (l', coords')⟩ = F ⟨false, some (l, coords)⟩ →
      (bindLocations d l' coords').bind F' = (bindLocations d l coords).bind F := by
    intro l l' α F F' h1 h2
    unfold bindLocations
    simp only [CRSDistance.makeParameter, DistParam.getMat]
    rw [h1, hc.2.1]
    by_cases h : l.nCols = 2 ∧ coords.nCols = 2
    · simp only [h, and_self, if_true, Res.bind, hd]
      exact h2
    · simp only [h, if_false, Res.bind]
  refine ⟨?_, ?_, ?_⟩
  · unfold gwrFit
    exact hbind _ _ _ _ _ hc.2.1 (by rw [hw _ _ _ _ hc.1 hc.2.2])
  · unfold gwrPredict
    exact hbind _ _ _ _ _ hl.2.1 (by rw [hw _ _ _ _ hl.1 hl.2.2])
  · unfold gwrAutoFit
    refine hbind _ _ _ _ _ hc.2.1 ?_
    have hcrit : ∀ b, gwrCriterion cr ⟨false, some (coords', coords')⟩ x y b = gwrCriterion cr ⟨false, some (coords, coords)⟩ x y b := by
      intro b
      unfold gwrCriterion
      rw [hw _ _ _ _ hc.1 hc.2.2]
    have hmax : (⟨false, some (coords', coords')⟩ : CRSDistance).maxDistance =
        (⟨false, some (coords, coords)⟩ : CRSDistance).maxDistance := by
      simp only [CRSDistance.maxDistance]
      rw [hc.1]
      congr 1
      funext i
      rw [crsDistRow_planar, crsDistRow_planar, hc.1]
      congr 1
      apply List.map_congr_left
      intro j _
      rw [hc.2.2, hc.2.2, ← euclid_rotate θ (coords.val i) (coords.val j)]
      unfold euclid rigid rotate
      simp only [if_true, one_ne_zero, if_false]
      congr 1
      ring
    have hsel : gwrSelectBandwidth cr ⟨false, some (coords', coords')⟩ b lower upper x y =
        gwrSelectBandwidth cr ⟨false, some (coords, coords)⟩ b lower upper x y := by
      unfold gwrSelectBandwidth
      rw [hmax]
      simp only [hcrit]
    rw [hsel]
    simp only [hw _ _ _ _ hc.1 hc.2.2]

/-- The hypothesis on coordinates is met by a real motion: a quarter turn and a shift. -/
example : ∃ c' : DynMat, c'.nRows = (lineCoords 10).nRows ∧ c'.nCols = (lineCoords 10).nCols ∧
    ∀ i, c'.val i = rigid (Real.pi / 2) 5 7 ((lineCoords 10).val i) :=
  ⟨⟨3, 2, fun i => rigid (Real.pi / 2) 5 7 ((lineCoords 10).val i)⟩, rfl, rfl, fun _ => rfl⟩

/-! ## C52 -/

/-- What the property asks of an accepted model. -/
structure WellFormed (s : GWRMembers) : Prop where
  nonempty : 0 < s.coordRows ∧ 0 < s.coordCols
  hasVariable : 0 < s.xCols
  rows : s.xRows = s.yRows ∧ s.xRows = s.coordRows
  bandwidth : ∃ b, s.weight = some b ∧ 0 < b.mBandwidth

theorem gwrBaseValid_iff (s : GWRMembers) : gwrBaseValid s = true ↔
    (0 < s.coordRows ∧ 0 < s.coordCols) ∧ 0 < s.xCols ∧ s.xRows = s.yRows ∧ s.xRows = s.coordRows := by
  unfold gwrBaseValid spatialValid
  simp only [Bool.and_eq_true, bne_iff_ne, ne_eq]
  split
  · split
    · simp only [Bool.false_eq_true, false_iff]; rintro ⟨-, h, -⟩; contradiction
    · split
      · simp only [Bool.false_eq_true, false_iff]; rintro ⟨-, -, h⟩; contradiction
      · simp only [true_iff]; refine ⟨⟨?_, ?_⟩, ?_, ?_⟩ <;> omega
  · simp only [Bool.false_eq_true, false_iff]; rintro ⟨⟨h1, h2⟩, -⟩; omega

/-- **C52 (partial).** `GWRBasic::isValid` and `GTWR::isValid` accept exactly the models with coordinates, at least one variable,
matching row counts and a weight with positive bandwidth; `GWRScalable::isValid` also wants a Gaussian or exponential kernel. A
model with a weight is always answered. Missing: they do not look at the distance and crash without a weight, see
`C52_missing_distance_accepted`, `C52_no_weight_ub`. -/
theorem C52_validation_partial (s : GWRMembers) :
    (gwrBasicValid s = .ok true ↔ WellFormed s) ∧
    (gwrScalableValid s = .ok true ↔
      WellFormed s ∧ ∃ b, s.weight = some b ∧ (b.mKernel = .Gaussian ∨ b.mKernel = .Exponential)) ∧
    ((∃ b, s.weight = some b) → ∃ v, gwrBasicValid s = .ok v) := by
  have hb := gwrBaseValid_iff s
  refine ⟨?_, ?_, ?_⟩
  · unfold gwrBasicValid
    by_cases h : gwrBaseValid s = true
    · obtain ⟨h1, h2, h3⟩ := hb.1 h
      rw [if_pos h]
      cases hw : s.weight with
      | none => simp only [reduceCtorEq, false_iff]; rintro ⟨-, -, -, b, hb, -⟩; rw [hw] at hb; cases hb
      | some b =>
        simp only
        by_cases hp : b.mBandwidth > 0
        · simp only [hp, not_true_eq_false, if_false, true_iff]; exact ⟨h1, h2, h3, b, hw, hp⟩
        · simp only [hp, not_false_eq_true, if_true, Res.ok.injEq, Bool.false_eq_true, false_iff]
          rintro ⟨-, -, -, b', hb', hp'⟩
          rw [hw] at hb'; cases hb'; exact hp hp'
    · rw [if_neg h]
      simp only [Res.ok.injEq, Bool.false_eq_true, false_iff]
      rintro ⟨h1, h2, h3, -⟩
      exact h (hb.2 ⟨h1, h2, h3⟩)
  · unfold gwrScalableValid
    by_cases h : gwrBaseValid s = true
    · obtain ⟨h1, h2, h3⟩ := hb.1 h
      rw [if_pos h]
      cases hw : s.weight with
      | none => simp
      | some b =>
        simp only
        by_cases hk : b.mKernel = .Gaussian ∨ b.mKernel = .Exponential
        · simp only [hk, not_true_eq_false, if_false]
          by_cases hp : b.mBandwidth > 0
          · simp only [hp, not_true_eq_false, if_false, true_iff]
            exact ⟨⟨h1, h2, h3, b, hw, hp⟩, b, rfl, hk⟩
          · simp only [hp, not_false_eq_true, if_true, Res.ok.injEq, Bool.false_eq_true, false_iff]
            rintro ⟨⟨-, -, -, b', hb', hp'⟩, -⟩
            rw [hw] at hb'; cases hb'; exact hp hp'
        · simp only [hk, not_false_eq_true, if_true, Res.ok.injEq, Bool.false_eq_true, false_iff]
          rintro ⟨-, b', hb', hk'⟩
          cases hb'; exact hk hk'
    · rw [if_neg h]
      simp only [Res.ok.injEq, Bool.false_eq_true, false_iff]
      rintro ⟨⟨h1, h2, h3, -⟩, -⟩
      exact h (hb.2 ⟨h1, h2, h3⟩)
  · rintro ⟨b, hw⟩
    unfold gwrBasicValid
    split
    · rw [hw]; simp only; split
      · exact ⟨_, rfl⟩
      · exact ⟨_, rfl⟩
    · exact ⟨_, rfl⟩

example : WellFormed ⟨100, 2, 100, 3, 100, some ⟨20, true, .Bisquare⟩, true⟩ :=
  ⟨⟨by norm_num, by norm_num⟩, by norm_num, ⟨rfl, rfl⟩, _, rfl, by norm_num⟩

/-- **C52 (negation).** Asking a model with data but no spatial weight whether it is valid dereferences a null pointer. -/
theorem C52_no_weight_ub (s : GWRMembers) (h : gwrBaseValid s = true) (hw : s.weight = none) :
    gwrBasicValid s = .ub ∧ gwrScalableValid s = .ub := by
  unfold gwrBasicValid gwrScalableValid
  rw [if_pos h, if_pos h, hw]
  exact ⟨rfl, rfl⟩

example : gwrBaseValid ⟨100, 2, 100, 3, 100, none, false⟩ = true := by decide

/-- **C52 (negation).** A model without distance is accepted. -/
theorem C52_missing_distance_accepted :
    gwrBasicValid ⟨100, 2, 100, 3, 100, some ⟨20, true, .Bisquare⟩, false⟩ = .ok true :=
  (C52_validation_partial _).1.2 ⟨⟨by norm_num, by norm_num⟩, by norm_num, ⟨rfl, rfl⟩, _, rfl, by norm_num⟩

/-- **C52 (negation).** An adaptive bandwidth below one neighbour is accepted although no fit with it can succeed, whatever the
data. -/
theorem C52_unusable_bandwidth_accepted (kernel : KernelType) (coords : DynMat) (d : CRSDistance) (x : Matrix (Fin (n + 1)) (Fin k) ℝ)
    (y : Fin (n + 1) → ℝ) (sS sC : Bool) (stop : ℕ → Bool) :
    gwrBasicValid ⟨100, 2, 100, 3, 100, some ⟨1 / 2, true, kernel⟩, true⟩ = .ok true ∧
    ∀ r, gwrFit d ⟨1 / 2, true, kernel⟩ coords x y sS sC stop ≠ .ok r := by
  refine ⟨(C52_validation_partial _).1.2 ⟨⟨by norm_num, by norm_num⟩, by norm_num, ⟨rfl, rfl⟩, _, rfl, by norm_num⟩, ?_⟩
  intro r h
  unfold gwrFit at h
  rw [Res.bind_eq_ok'] at h
  obtain ⟨d', h1, h⟩ := h
  rw [Res.bind_eq_ok'] at h
  obtain ⟨W, h2, -⟩ := h
  obtain ⟨-, -, rfl⟩ := bindLocations_eq_ok.1 h1
  obtain ⟨-, -, dist, -, hw⟩ := (weightRows_eq_ok.1 h2) 0
  exact C04_adaptive_rejected kernel dist (1 / 2) (Or.inr (by norm_num)) _ hw

/-- **C52 (negation).** Summary statistics (and discriminant analysis) accept a data matrix whose number of rows differs from
the number of locations. -/
theorem C52_gwss_rows_unchecked (s : GWRMembers) (h : 0 < s.coordRows ∧ 0 < s.coordCols ∧ 0 < s.xCols) (rows : ℕ) :
    gwssValid { s with xRows := rows } = true := by
  obtain ⟨h1, h2, h3⟩ := h
  unfold gwssValid spatialValid
  simp [h3, h1.ne', h2.ne']

end Verif.Props

import Verif.Model.LocalRegression
import Verif.Model.GWRBasic
import Verif.Spec.Regression
import Verif.Lemmas.Loops
import Mathlib.Tactic.Linarith
import Mathlib.Tactic.Ring
import Mathlib.Tactic.Positivity

namespace Verif.Model
open Verif Matrix Classical Verif.Spec

variable {n k : ℕ}

theorem invSympd_eq_ok {A B : Matrix (Fin k) (Fin k) ℝ} : invSympd A = .ok B ↔ A.PosDef ∧ B = A⁻¹ := by
  unfold invSympd
  split
  · rename_i h; simp [h, eq_comm]
  · rename_i h; simp [h]

theorem invSympd_cases (A : Matrix (Fin k) (Fin k) ℝ) : (∃ r, invSympd A = .ok r) ∨ invSympd A = .throw .singular := by
  unfold invSympd; split
  · exact Or.inl ⟨_, rfl⟩
  · exact Or.inr rfl

theorem localFit_cases (x : Matrix (Fin n) (Fin k) ℝ) (y w : Fin n → ℝ) (xi : Fin k → ℝ) :
    (∃ r, localFit x y w xi = .ok r) ∨ localFit x y w xi = .throw .singular := by
  unfold localFit
  rcases invSympd_cases (xtwx x w) with ⟨r, h⟩ | h <;> rw [h]
  · exact Or.inl ⟨_, rfl⟩
  · exact Or.inr rfl

theorem localBeta_cases (x : Matrix (Fin n) (Fin k) ℝ) (y w : Fin n → ℝ) :
    (∃ r, localBeta x y w = .ok r) ∨ localBeta x y w = .throw .singular := by
  unfold localBeta
  rcases invSympd_cases (xtwx x w) with ⟨r, h⟩ | h <;> rw [h]
  · exact Or.inl ⟨_, rfl⟩
  · exact Or.inr rfl

theorem localFit_eq_ok {x : Matrix (Fin n) (Fin k) ℝ} {y w : Fin n → ℝ} {xi : Fin k → ℝ} {lf : LocalFit n k} :
    localFit x y w xi = .ok lf ↔ (xtwx x w).PosDef ∧ lf.beta = (xtwx x w)⁻¹ *ᵥ (xtw x w *ᵥ y) ∧
      lf.ci = (xtwx x w)⁻¹ * xtw x w ∧ lf.si = xi ᵥ* ((xtwx x w)⁻¹ * xtw x w) := by
  unfold localFit
  rw [Res.bind_eq_ok']
  constructor
  · rintro ⟨B, h1, h2⟩
    obtain ⟨h3, rfl⟩ := invSympd_eq_ok.1 h1
    have := Res.ok.inj h2
    subst this
    exact ⟨h3, rfl, rfl, rfl⟩
  · rintro ⟨h1, h2, h3, h4⟩
    refine ⟨_, invSympd_eq_ok.2 ⟨h1, rfl⟩, ?_⟩
    rw [← h2, ← h3] at *
    cases lf
    simp_all

theorem localBeta_eq_ok {x : Matrix (Fin n) (Fin k) ℝ} {y w : Fin n → ℝ} {b : Fin k → ℝ} :
    localBeta x y w = .ok b ↔ (xtwx x w).PosDef ∧ b = (xtwx x w)⁻¹ *ᵥ (xtw x w *ᵥ y) := by
  unfold localBeta
  rw [Res.bind_eq_ok']
  constructor
  · rintro ⟨B, h1, h2⟩
    obtain ⟨h3, rfl⟩ := invSympd_eq_ok.1 h1
    exact ⟨h3, (Res.ok.inj h2).symm⟩
  · rintro ⟨h1, h2⟩
    exact ⟨_, invSympd_eq_ok.2 ⟨h1, rfl⟩, by rw [h2]⟩

theorem xtwx_apply (x : Matrix (Fin n) (Fin k) ℝ) (w : Fin n → ℝ) (a b : Fin k) :
    xtwx x w a b = ∑ l, x l a * w l * x l b := rfl

theorem xtwx_isHermitian (x : Matrix (Fin n) (Fin k) ℝ) (w : Fin n → ℝ) : (xtwx x w).IsHermitian := by
  ext a b
  simp only [conjTranspose_apply, star_trivial, xtwx_apply]
  exact Finset.sum_congr rfl fun l _ => by ring

/-- `x_l · b`. -/
theorem mulVec_eq (x : Matrix (Fin n) (Fin k) ℝ) (b : Fin k → ℝ) (l : Fin n) : (x *ᵥ b) l = ∑ j, x l j * b j := rfl

theorem xtwx_mulVec (x : Matrix (Fin n) (Fin k) ℝ) (w : Fin n → ℝ) (b : Fin k → ℝ) :
    xtwx x w *ᵥ b = xtw x w *ᵥ (x *ᵥ b) := by
  unfold xtwx; rw [mulVec_mulVec]

theorem dot_xtw (x : Matrix (Fin n) (Fin k) ℝ) (w : Fin n → ℝ) (b : Fin k → ℝ) (v : Fin n → ℝ) :
    b ⬝ᵥ (xtw x w *ᵥ v) = ∑ l, w l * (x *ᵥ b) l * v l := by
  rw [dotProduct_mulVec]
  simp only [dotProduct, vecMul, xtw, mulVec, of_apply]
  refine Finset.sum_congr rfl fun l _ => ?_
  rw [Finset.sum_mul, Finset.mul_sum, Finset.sum_mul]
  exact Finset.sum_congr rfl fun j _ => by ring

/-- The quadratic form of the weighted Gram matrix. -/
theorem gram_form (x : Matrix (Fin n) (Fin k) ℝ) (w : Fin n → ℝ) (b : Fin k → ℝ) :
    b ⬝ᵥ (xtwx x w *ᵥ b) = ∑ l, w l * ((x *ᵥ b) l) ^ 2 := by
  rw [xtwx_mulVec, dot_xtw]
  exact Finset.sum_congr rfl fun l _ => by ring

theorem gram_posDef_iff (x : Matrix (Fin n) (Fin k) ℝ) (w : Fin n → ℝ) :
    (xtwx x w).PosDef ↔ ∀ b : Fin k → ℝ, b ≠ 0 → 0 < ∑ l, w l * (∑ j, x l j * b j) ^ 2 := by
  rw [posDef_iff_dotProduct_mulVec]
  simp only [xtwx_isHermitian, true_and, star_trivial, gram_form]
  rfl

/-- For non-negative weights, positive definite means: the observations with positive weight determine the coefficients. -/
theorem gram_posDef_iff_determined (x : Matrix (Fin n) (Fin k) ℝ) (w : Fin n → ℝ) (hw : ∀ l, 0 ≤ w l) :
    (xtwx x w).PosDef ↔ Determined x w := by
  rw [gram_posDef_iff]
  constructor
  · intro h b hb
    by_contra hne
    have := h b hne
    have h0 : ∑ l, w l * (∑ j, x l j * b j) ^ 2 = 0 := by
      refine Finset.sum_eq_zero fun l _ => ?_
      rcases (hw l).eq_or_lt with h0 | h0
      · rw [← h0]; ring
      · rw [hb l h0]; ring
    linarith
  · intro h b hb
    have hnn : ∀ l ∈ Finset.univ, 0 ≤ w l * (∑ j, x l j * b j) ^ 2 := fun l _ => mul_nonneg (hw l) (sq_nonneg _)
    rcases (Finset.sum_nonneg hnn).eq_or_lt with h0 | h0
    · exfalso
      apply hb
      apply h
      intro l hl
      have := (Finset.sum_eq_zero_iff_of_nonneg hnn).1 h0.symm l (Finset.mem_univ l)
      rcases mul_eq_zero.1 this with h1 | h1
      · exact absurd h1 hl.ne'
      · exact pow_eq_zero_iff (two_ne_zero) |>.1 h1
    · exact h0

/-- The normal equations. -/
theorem normal_equations {x : Matrix (Fin n) (Fin k) ℝ} {y w : Fin n → ℝ} (h : (xtwx x w).PosDef) :
    xtwx x w *ᵥ ((xtwx x w)⁻¹ *ᵥ (xtw x w *ᵥ y)) = xtw x w *ᵥ y := by
  rw [mulVec_mulVec, mul_nonsing_inv _ ((isUnit_iff_isUnit_det _).1 h.isUnit), one_mulVec]

theorem inv_mul_gram {x : Matrix (Fin n) (Fin k) ℝ} {w : Fin n → ℝ} (h : (xtwx x w).PosDef) (b : Fin k → ℝ) :
    (xtwx x w)⁻¹ *ᵥ (xtwx x w *ᵥ b) = b := by
  rw [mulVec_mulVec, nonsing_inv_mul _ ((isUnit_iff_isUnit_det _).1 h.isUnit), one_mulVec]

/-- Decomposition of the weighted residual sum of squares around a solution of the normal equations. -/
theorem wss_decomp (x : Matrix (Fin n) (Fin k) ℝ) (y w : Fin n → ℝ) (b : Fin k → ℝ)
    (hb : xtwx x w *ᵥ b = xtw x w *ᵥ y) (b' : Fin k → ℝ) :
    wss x y w b' = wss x y w b + ∑ l, w l * (∑ j, x l j * (b' - b) j) ^ 2 := by
  have key : ∑ l, w l * (x *ᵥ (b' - b)) l * (y l - (x *ᵥ b) l) = 0 := by
    have h1 := dot_xtw x w (b' - b) y
    have h2 := dot_xtw x w (b' - b) (x *ᵥ b)
    rw [← xtwx_mulVec, hb, h1] at h2
    have : ∑ l, w l * (x *ᵥ (b' - b)) l * (y l - (x *ᵥ b) l) =
        ∑ l, w l * (x *ᵥ (b' - b)) l * y l - ∑ l, w l * (x *ᵥ (b' - b)) l * (x *ᵥ b) l := by
      rw [← Finset.sum_sub_distrib]; exact Finset.sum_congr rfl fun l _ => by ring
    rw [this, h2, sub_self]
  have e : ∀ l, ∑ j, x l j * b' j = (x *ᵥ b) l + (x *ᵥ (b' - b)) l := by
    intro l
    rw [mulVec_sub, Pi.sub_apply, mulVec_eq, mulVec_eq]; ring
  unfold wss
  rw [← sub_eq_zero, ← Finset.sum_add_distrib, ← Finset.sum_sub_distrib]
  have : ∀ l ∈ Finset.univ, w l * (y l - ∑ j, x l j * b' j) ^ 2 -
      (w l * (y l - ∑ j, x l j * b j) ^ 2 + w l * (∑ j, x l j * (b' - b) j) ^ 2) =
      (-2) * (w l * (x *ᵥ (b' - b)) l * (y l - (x *ᵥ b) l)) := by
    intro l _
    rw [e l, ← mulVec_eq x b, ← mulVec_eq x (b' - b)]; ring
  rw [Finset.sum_congr rfl this, ← Finset.mul_sum, key, mul_zero]

/-- Positive definite weighted Gram matrix: the solution of the normal equations is the unique minimiser. -/
theorem isWLS_of_posDef {x : Matrix (Fin n) (Fin k) ℝ} {y w : Fin n → ℝ} (h : (xtwx x w).PosDef) :
    IsWLS x y w ((xtwx x w)⁻¹ *ᵥ (xtw x w *ᵥ y)) := by
  intro b' hb'
  rw [wss_decomp x y w _ (normal_equations h) b']
  have := (gram_posDef_iff x w).1 h (b' - (xtwx x w)⁻¹ *ᵥ (xtw x w *ᵥ y)) (sub_ne_zero.2 hb')
  linarith

theorem mem_workRange {n a b : ℕ} {i : Fin n} : i ∈ workRange n a b ↔ a ≤ i.val ∧ i.val < b := by
  simp [workRange]

theorem nodup_workRange (n a b : ℕ) : (workRange n a b).Nodup := (List.nodup_finRange n).filter _

theorem workRange_all (n : ℕ) : workRange n 0 n = List.finRange n := by
  unfold workRange
  rw [List.filter_eq_self]
  intro i _
  simp [i.isLt]

/-! ### What the serial core fit returns -/

/-- Fields of the accumulator after a fold of updates. -/
theorem fold_fitUpd (first : ℕ) (sS sC : Bool) (r : Fin n → LocalFit n k) : ∀ (l : List (Fin n)) (a : FitAcc n k),
    (l.foldl (fun a i => fitUpd first sS sC i (r i) a) a).betas =
      l.foldl (fun f i => Function.update f i (r i).beta) a.betas ∧
    (l.foldl (fun a i => fitUpd first sS sC i (r i) a) a).se =
      l.foldl (fun f i => Function.update f i (seRow (r i))) a.se ∧
    (l.foldl (fun a i => fitUpd first sS sC i (r i) a) a).shat = a.shat + (l.map fun i => shatRow i (r i)).sum ∧
    (l.foldl (fun a i => fitUpd first sS sC i (r i) a) a).qdiag = a.qdiag + (l.map fun i => qRow i (r i)).sum ∧
    (l.foldl (fun a i => fitUpd first sS sC i (r i) a) a).s =
      l.foldl (fun f i => Function.update f (if sS then i.val - first else 0) (r i).si) a.s ∧
    (l.foldl (fun a i => fitUpd first sS sC i (r i) a) a).c =
      l.foldl (fun f i => Function.update f (if sC then i.val - first else 0) (r i).ci) a.c
  | [], a => ⟨rfl, rfl, by simp, by simp, rfl, rfl⟩
  | j :: l, a => by
    obtain ⟨h1, h2, h3, h4, h5, h6⟩ := fold_fitUpd first sS sC r l (fitUpd first sS sC j (r j) a)
    simp only [List.foldl_cons]
    refine ⟨h1, h2, ?_, ?_, h5, h6⟩
    · rw [h3]; simp [fitUpd, add_assoc]
    · rw [h4]; simp [fitUpd, add_assoc]

theorem slot_nodup (n first second : ℕ) : ((workRange n first second).map (fun i => i.val - first)).Nodup := by
  refine List.Nodup.map_on ?_ (nodup_workRange n first second)
  intro a ha b hb hab
  have h1 := (mem_workRange.1 ha).1
  have h2 := (mem_workRange.1 hb).1
  exact Fin.ext (by omega)

/-- The outcome of an uninterrupted serial core fit over a work range, in terms of the local fits. -/
structure CoreFit (x : Matrix (Fin n) (Fin k) ℝ) (y : Fin n → ℝ) (W : Fin n → Fin n → ℝ) (first second : ℕ)
    (sS sC : Bool) (a : FitAcc n k) (r : Fin n → LocalFit n k) : Prop where
  loc : ∀ i, first ≤ i.val → i.val < second → localFit x y (W i) (x i) = .ok (r i)
  betas : ∀ i, first ≤ i.val → i.val < second → a.betas i = (r i).beta
  betas0 : ∀ i, ¬ (first ≤ i.val ∧ i.val < second) → a.betas i = 0
  se : ∀ i, first ≤ i.val → i.val < second → a.se i = seRow (r i)
  se0 : ∀ i, ¬ (first ≤ i.val ∧ i.val < second) → a.se i = 0
  shat : a.shat = ((workRange n first second).map fun i => shatRow i (r i)).sum
  qdiag : a.qdiag = ((workRange n first second).map fun i => qRow i (r i)).sum
  s : sS = true → ∀ i, first ≤ i.val → i.val < second → a.s (i.val - first) = (r i).si
  c : sC = true → ∀ i, first ≤ i.val → i.val < second → a.c (i.val - first) = (r i).ci

theorem coreFit_of_fold (x : Matrix (Fin n) (Fin k) ℝ) (y : Fin n → ℝ) (W : Fin n → Fin n → ℝ) (first second : ℕ)
    (sS sC : Bool) (r : Fin n → LocalFit n k)
    (hr : ∀ i ∈ workRange n first second, localFit x y (W i) (x i) = .ok (r i)) :
    CoreFit x y W first second sS sC
      ((workRange n first second).foldl (fun a i => fitUpd first sS sC i (r i) a) FitAcc.zero) r := by
  obtain ⟨h1, h2, h3, h4, h5, h6⟩ := fold_fitUpd first sS sC r (workRange n first second) FitAcc.zero
  have hnd := nodup_workRange n first second
  have hid : ((workRange n first second).map fun i => i).Nodup := by simpa using hnd
  refine ⟨fun i ha hb => hr i (mem_workRange.2 ⟨ha, hb⟩), ?_, ?_, ?_, ?_, ?_, ?_, ?_, ?_⟩
  · intro i ha hb
    rw [h1]; exact foldl_update (fun i => i) (fun i => (r i).beta) _ _ hid i (mem_workRange.2 ⟨ha, hb⟩)
  · intro i hi
    rw [h1]
    exact foldl_update_other (fun i => i) (fun i => (r i).beta) _ _ i (by simpa using fun h => hi (mem_workRange.1 h))
  · intro i ha hb
    rw [h2]; exact foldl_update (fun i => i) (fun i => seRow (r i)) _ _ hid i (mem_workRange.2 ⟨ha, hb⟩)
  · intro i hi
    rw [h2]
    exact foldl_update_other (fun i => i) (fun i => seRow (r i)) _ _ i (by simpa using fun h => hi (mem_workRange.1 h))
  · rw [h3]; simp [FitAcc.zero]
  · rw [h4]; simp [FitAcc.zero]
  · intro hS i ha hb
    rw [h5]; subst hS
    exact foldl_update (fun i : Fin n => i.val - first) (fun i => (r i).si) _ _ (slot_nodup n first second) i
      (mem_workRange.2 ⟨ha, hb⟩)
  · intro hC i ha hb
    rw [h6]; subst hC
    exact foldl_update (fun i : Fin n => i.val - first) (fun i => (r i).ci) _ _ (slot_nodup n first second) i
      (mem_workRange.2 ⟨ha, hb⟩)

/-- A serial loop that completes without being stopped equals the fold of its updates. -/
theorem serialFor_eq_fold {ι ρ σ : Type} {g : ι → Res ρ} {upd : ι → ρ → σ → σ} {stop : ℕ → Bool} :
    ∀ (is : List ι) (p : ℕ) (s s' : σ), serialFor g upd stop is p s = .ok (s', false) → ∀ r : ι → ρ,
      (∀ i ∈ is, g i = .ok (r i)) → s' = is.foldl (fun s i => upd i (r i) s) s
  | [], p, s, s', h, r, _ => by simp only [serialFor, Res.ok.injEq, Prod.mk.injEq, and_true] at h; exact h.symm
  | i :: is, p, s, s', h, r, hr => by
    simp only [serialFor] at h
    split at h
    · simp at h
    · rw [hr i List.mem_cons_self] at h
      simp only [Res.bind] at h
      exact serialFor_eq_fold is _ _ _ h r (fun j hj => hr j (List.mem_cons_of_mem _ hj))

/-- The local fit that an `Ok` location produces (arbitrary elsewhere). -/
noncomputable def fitAt (x : Matrix (Fin n) (Fin k) ℝ) (y : Fin n → ℝ) (W : Fin n → Fin n → ℝ) (i : Fin n) : LocalFit n k :=
  ⟨(xtwx x (W i))⁻¹ *ᵥ (xtw x (W i) *ᵥ y), (xtwx x (W i))⁻¹ * xtw x (W i), x i ᵥ* ((xtwx x (W i))⁻¹ * xtw x (W i))⟩

theorem localFit_fitAt {x : Matrix (Fin n) (Fin k) ℝ} {y : Fin n → ℝ} {W : Fin n → Fin n → ℝ} {i : Fin n}
    (h : (xtwx x (W i)).PosDef) : localFit x y (W i) (x i) = .ok (fitAt x y W i) :=
  localFit_eq_ok.2 ⟨h, rfl, rfl, rfl⟩

theorem fitCoreSerial_ok {x : Matrix (Fin n) (Fin k) ℝ} {y : Fin n → ℝ} {W : Fin n → Fin n → ℝ} {first second : ℕ}
    {sS sC : Bool} {stop : ℕ → Bool} {a : FitAcc n k}
    (h : fitCoreSerial x y W first second sS sC stop = .ok (a, false)) :
    (∀ i : Fin n, first ≤ i.val → i.val < second → (xtwx x (W i)).PosDef) ∧
      CoreFit x y W first second sS sC a (fitAt x y W) := by
  have hpd : ∀ i ∈ workRange n first second, (xtwx x (W i)).PosDef := by
    intro i hi
    obtain ⟨r, hr⟩ := serialFor_complete _ _ _ _ h i hi
    exact (localFit_eq_ok.1 hr).1
  refine ⟨fun i ha hb => hpd i (mem_workRange.2 ⟨ha, hb⟩), ?_⟩
  have hr : ∀ i ∈ workRange n first second, localFit x y (W i) (x i) = .ok (fitAt x y W i) :=
    fun i hi => localFit_fitAt (hpd i hi)
  have := serialFor_eq_fold _ _ _ _ h (fitAt x y W) hr
  rw [this]
  exact coreFit_of_fold x y W first second sS sC _ hr

/-- The outcome of an uninterrupted loop that stores one coefficient row per location. -/
theorem betaLoop_ok {m : ℕ} {stop : ℕ → Bool} {is : List (Fin m)} (hnd : is.Nodup) {g : Fin m → Res (Fin k → ℝ)}
    {b : Matrix (Fin m) (Fin k) ℝ}
    (h : serialFor g setRow stop is 0 (0 : Matrix (Fin m) (Fin k) ℝ) = .ok (b, false)) :
    (∀ i ∈ is, g i = .ok (b i)) ∧ ∀ i, i ∉ is → b i = 0 := by
  have hex := serialFor_complete _ _ _ _ h
  choose! r hr using hex
  have := serialFor_eq_fold _ _ _ _ h r hr
  have hid : (is.map fun i => i).Nodup := by simpa using hnd
  constructor
  · intro i hi
    rw [hr i hi, this]
    congr 1
    exact (foldl_update (fun i => i) r is _ hid i hi).symm
  · intro i hi
    rw [this]
    exact foldl_update_other (fun i => i) r is _ i (by simpa using hi)

end Verif.Model

import Verif.Model.GWPCA
import Verif.Spec.PCA
import Mathlib.LinearAlgebra.Matrix.NonsingularInverse
import Mathlib.Tactic.FinCases
import Mathlib.Algebra.BigOperators.Field

/-! # C53, C62: geographically weighted principal components -/

namespace Verif.Props
open Verif Verif.Model Verif.Spec Matrix

variable {n p K : ℕ}

theorem gwpca_ok {svd : Matrix (Fin (n + 1)) (Fin p) ℝ → SvdOut p} {x : Matrix (Fin (n + 1)) (Fin p) ℝ}
    {W : Fin (n + 1) → Fin (n + 1) → ℝ} {o : PcaOut n p K} (h : gwpca svd x W K = .ok o) :
    0 < K ∧ ∃ hK : K ≤ p, (∀ i, ∑ l, W i l ≠ 0) ∧ (∀ i, ∑ j, pcaVariance svd x W i j ≠ 0) ∧
      (∀ i j, o.pv i j = pcaVariance svd x W i (Fin.castLE hK j) * (1 / ∑ j, pcaVariance svd x W i j) * 100) ∧
      (∀ i j, o.sdev i j = Real.sqrt (pcaVariance svd x W i j)) ∧
      (∀ j i c, o.loadings j i c = (svd (centred x (W i))).V c (Fin.castLE hK j)) := by
  unfold gwpca at h
  split at h
  · cases h
  · split at h
    · rename_i hK
      split at h
      · cases h
      · rename_i hz
        push Not at hz
        obtain ⟨h1, h2⟩ := hz
        simp only [Res.ok.injEq] at h
        subst h
        exact ⟨hK.1, hK.2, h1, h2, fun i j => rfl, fun i j => rfl, fun j i c => rfl⟩
    · cases h

/-- `pcaVariance` in terms of the singular value. -/
theorem pcaVariance_eq (svd : Matrix (Fin (n + 1)) (Fin p) ℝ → SvdOut p) (x : Matrix (Fin (n + 1)) (Fin p) ℝ)
    (W : Fin (n + 1) → Fin (n + 1) → ℝ) (hW : ∀ l, 0 ≤ W (Fin.last n) l) (i : Fin (n + 1)) (j : Fin p) :
    pcaVariance svd x W i j = (svd (centred x (W i))).d j ^ 2 / ∑ l, W (Fin.last n) l := by
  have h0 : 0 ≤ ∑ l, W (Fin.last n) l := Finset.sum_nonneg fun l _ => hW l
  simp only [pcaVariance]
  rw [div_mul_div_comm, Real.mul_self_sqrt h0, sq]

/-- **C53.** The local percentages of variance are between 0 and 100, do not increase from one component to the next, and add up to at most
100; to exactly 100 if all components are kept. -/
theorem C53_percentages (svd : Matrix (Fin (n + 1)) (Fin p) ℝ → SvdOut p) (x : Matrix (Fin (n + 1)) (Fin p) ℝ)
    (W : Fin (n + 1) → Fin (n + 1) → ℝ) (hW : ∀ i l, 0 ≤ W i l)
    (hsvd : ∀ i, IsRightSVD (centred x (W i)) (svd (centred x (W i))).d (svd (centred x (W i))).V) (o : PcaOut n p K)
    (h : gwpca svd x W K = .ok o) (i : Fin (n + 1)) :
    (∀ j, 0 ≤ o.pv i j ∧ o.pv i j ≤ 100) ∧ Antitone (o.pv i) ∧ ∑ j, o.pv i j ≤ 100 ∧ (K = p → ∑ j, o.pv i j = 100) := by
  obtain ⟨-, hK, h1, h2, h3, -, -⟩ := gwpca_ok h
  have hs0 : 0 < ∑ l, W (Fin.last n) l := lt_of_le_of_ne (Finset.sum_nonneg fun l _ => hW _ l) (Ne.symm (h1 _))
  have hv : ∀ j, pcaVariance svd x W i j = (svd (centred x (W i))).d j ^ 2 / ∑ l, W (Fin.last n) l :=
    pcaVariance_eq svd x W (hW _) i
  have hnn : ∀ j, 0 ≤ pcaVariance svd x W i j := fun j => by rw [hv]; positivity
  have hanti : ∀ j j', j ≤ j' → pcaVariance svd x W i j' ≤ pcaVariance svd x W i j := by
    intro j j' hj
    rw [hv, hv]
    refine div_le_div_of_nonneg_right ?_ hs0.le
    exact pow_le_pow_left₀ ((hsvd i).nonneg j') ((hsvd i).anti hj) 2
  set tot := ∑ j, pcaVariance svd x W i j with htot
  have htpos : 0 < tot := lt_of_le_of_ne (Finset.sum_nonneg fun j _ => hnn j) (Ne.symm (h2 i))
  have hle : ∑ j : Fin K, pcaVariance svd x W i (Fin.castLE hK j) ≤ tot := by
    have hinj : Function.Injective (Fin.castLE hK) := Fin.castLE_injective hK
    rw [← Finset.sum_image (f := fun j => pcaVariance svd x W i j) (s := Finset.univ) (g := Fin.castLE hK) hinj.injOn]
    exact Finset.sum_le_sum_of_subset_of_nonneg (Finset.subset_univ _) fun j _ _ => hnn j
  have hsum : ∑ j, o.pv i j = (∑ j : Fin K, pcaVariance svd x W i (Fin.castLE hK j)) * (1 / tot) * 100 := by
    rw [Finset.sum_mul, Finset.sum_mul]
    exact Finset.sum_congr rfl fun j _ => h3 i j
  refine ⟨fun j => ⟨?_, ?_⟩, ?_, ?_, ?_⟩
  · rw [h3]; have := hnn (Fin.castLE hK j); positivity
  · rw [h3, mul_one_div]
    have : pcaVariance svd x W i (Fin.castLE hK j) ≤ tot :=
      Finset.single_le_sum (f := fun j => pcaVariance svd x W i j) (fun j _ => hnn j) (Finset.mem_univ _)
    have := (div_le_one htpos).2 this
    linarith
  · intro j j' hj
    rw [h3, h3]
    have := hanti (Fin.castLE hK j) (Fin.castLE hK j') hj
    have h4 : 0 ≤ 1 / tot := by positivity
    nlinarith [mul_le_mul_of_nonneg_right this h4]
  · rw [hsum, mul_one_div]
    have := (div_le_one htpos).2 hle
    linarith
  · intro e
    subst e
    rw [hsum]
    have : ∑ j : Fin K, pcaVariance svd x W i (Fin.castLE hK j) = tot := rfl
    rw [this, mul_one_div, div_self htpos.ne', one_mul]

/-- The Gram matrix of the centred data is the total weight times the weighted covariance matrix; as a quadratic form. -/
theorem centred_form (x : Matrix (Fin (n + 1)) (Fin p) ℝ) (w : Fin (n + 1) → ℝ) (hw : ∀ l, 0 ≤ w l) (hs : ∑ l, w l ≠ 0) (v : Fin p → ℝ) :
    (centred x w *ᵥ v) ⬝ᵥ (centred x w *ᵥ v) = (∑ l, w l) * wvar (shareOf w) (score x v) := by
  have hm : wmean (shareOf w) (score x v) = ∑ c, pcaMean x w c * v c := by
    unfold wmean score shareOf pcaMean
    have : ∀ l, w l / (∑ m, w m) * ∑ c, x l c * v c = ∑ c, (x l c * w l) / (∑ m, w m) * v c := by
      intro l
      rw [Finset.mul_sum]
      exact Finset.sum_congr rfl fun c _ => by ring
    simp only [this]
    rw [Finset.sum_comm]
    refine Finset.sum_congr rfl fun c _ => ?_
    rw [← Finset.sum_mul, Finset.sum_div]
  have hl : ∀ l, (centred x w *ᵥ v) l = Real.sqrt (w l) * (score x v l - wmean (shareOf w) (score x v)) := by
    intro l
    rw [hm]
    simp only [mulVec, dotProduct, centred, of_apply, score]
    rw [← Finset.sum_sub_distrib, Finset.mul_sum]
    exact Finset.sum_congr rfl fun c _ => by ring
  unfold wvar dotProduct
  rw [Finset.mul_sum]
  refine Finset.sum_congr rfl fun l _ => ?_
  rw [hl l]
  unfold shareOf
  have := Real.mul_self_sqrt (hw l)
  calc Real.sqrt (w l) * (score x v l - wmean (fun l => w l / ∑ m, w m) (score x v)) *
        (Real.sqrt (w l) * (score x v l - wmean (fun l => w l / ∑ m, w m) (score x v)))
      = (Real.sqrt (w l) * Real.sqrt (w l)) * (score x v l - wmean (fun l => w l / ∑ m, w m) (score x v)) ^ 2 := by ring
    _ = w l * (score x v l - wmean (fun l => w l / ∑ m, w m) (score x v)) ^ 2 := by rw [this]
    _ = _ := by field_simp

theorem svd_mul_self {A : Matrix (Fin n) (Fin p) ℝ} {d : Fin p → ℝ} {V : Matrix (Fin p) (Fin p) ℝ} (h : IsRightSVD A d V) (j : Fin p) :
    (A *ᵥ (fun c => V c j)) ⬝ᵥ (A *ᵥ (fun c => V c j)) = d j ^ 2 := by
  have := congrFun (congrFun h.gram j) j
  simp only [diagonal_apply_eq] at this
  rw [← this]
  rfl

/-- Coordinates of a vector in the basis of right singular vectors. -/
theorem svd_expand {A : Matrix (Fin n) (Fin p) ℝ} {d : Fin p → ℝ} {V : Matrix (Fin p) (Fin p) ℝ} (h : IsRightSVD A d V) (u : Fin p → ℝ) :
    (A *ᵥ u) ⬝ᵥ (A *ᵥ u) = ∑ j, d j ^ 2 * (∑ c, V c j * u c) ^ 2 ∧ ∑ j, (∑ c, V c j * u c) ^ 2 = ∑ c, u c ^ 2 := by
  have hVV : V * Vᵀ = 1 := mul_eq_one_comm.1 h.orth
  set a : Fin p → ℝ := Vᵀ *ᵥ u with ha
  have hu : V *ᵥ a = u := by rw [ha, mulVec_mulVec, hVV, one_mulVec]
  have haj : ∀ j, a j = ∑ c, V c j * u c := fun j => rfl
  constructor
  · have e1 : (A *ᵥ u) ⬝ᵥ (A *ᵥ u) = a ⬝ᵥ (((A * V)ᵀ * (A * V)) *ᵥ a) := by
      rw [← mulVec_mulVec, dotProduct_mulVec a, vecMul_transpose, ← mulVec_mulVec, hu]
    rw [e1, h.gram, mulVec_diagonal_dot]
    exact Finset.sum_congr rfl fun j _ => by rw [← haj]
  · have e1 : a ⬝ᵥ a = u ⬝ᵥ u := by
      rw [ha, dotProduct_mulVec, ← mulVec_transpose, mulVec_mulVec, transpose_transpose, hVV, one_mulVec]
    simp only [dotProduct] at e1
    calc ∑ j, (∑ c, V c j * u c) ^ 2 = ∑ j, a j * a j := Finset.sum_congr rfl fun j _ => by rw [haj]; ring
      _ = ∑ c, u c * u c := e1
      _ = _ := Finset.sum_congr rfl fun c _ => by ring
where
  mulVec_diagonal_dot {p : ℕ} (a e : Fin p → ℝ) : a ⬝ᵥ (diagonal e *ᵥ a) = ∑ j, e j * a j ^ 2 := by
    simp only [dotProduct, mulVec_diagonal]
    exact Finset.sum_congr rfl fun j _ => by ring

/-- **C62, loadings and percentages.** At every location the loadings are orthonormal directions; the reported percentage of a component is
100 times the locally weighted variance of the scores along its loadings, relative to the total of the locally weighted variances of the
variables. -/
theorem C62_percentages_are_local_variances (svd : Matrix (Fin (n + 1)) (Fin p) ℝ → SvdOut p) (x : Matrix (Fin (n + 1)) (Fin p) ℝ)
    (W : Fin (n + 1) → Fin (n + 1) → ℝ) (hW : ∀ i l, 0 ≤ W i l)
    (hsvd : ∀ i, IsRightSVD (centred x (W i)) (svd (centred x (W i))).d (svd (centred x (W i))).V) (o : PcaOut n p K)
    (h : gwpca svd x W K = .ok o) (i : Fin (n + 1)) :
    (∀ j j', ∑ c, o.loadings j i c * o.loadings j' i c = if j = j' then 1 else 0) ∧
    0 < ∑ c, wvar (shareOf (W i)) (fun l => x l c) ∧
    ∀ j, o.pv i j = 100 * wvar (shareOf (W i)) (score x (o.loadings j i)) / ∑ c, wvar (shareOf (W i)) (fun l => x l c) := by
  obtain ⟨-, hK, h1, h2, h3, -, h5⟩ := gwpca_ok h
  have hs0 : 0 < ∑ l, W (Fin.last n) l := lt_of_le_of_ne (Finset.sum_nonneg fun l _ => hW _ l) (Ne.symm (h1 _))
  have hsi : 0 < ∑ l, W i l := lt_of_le_of_ne (Finset.sum_nonneg fun l _ => hW _ l) (Ne.symm (h1 _))
  have hv := pcaVariance_eq svd x W (hW _) i
  set d := (svd (centred x (W i))).d with hd
  set V := (svd (centred x (W i))).V with hV
  have hi := hsvd i
  -- total of the squared singular values
  have htot : ∑ j, d j ^ 2 = (∑ l, W i l) * ∑ c, wvar (shareOf (W i)) (fun l => x l c) := by
    have hc : ∀ c, (∑ l, W i l) * wvar (shareOf (W i)) (fun l => x l c) = ∑ j, d j ^ 2 * V c j ^ 2 := by
      intro c
      have e := (svd_expand hi (Pi.single c 1)).1
      rw [centred_form x (W i) (hW i) (h1 i)] at e
      have es : score x (Pi.single c 1) = fun l => x l c := by
        funext l; simp [score, Pi.single_apply]
      rw [es] at e
      rw [e]
      refine Finset.sum_congr rfl fun j _ => ?_
      congr 2
      simp [Pi.single_apply, hV]
    rw [Finset.mul_sum]
    simp only [hc]
    rw [Finset.sum_comm]
    refine Finset.sum_congr rfl fun j _ => ?_
    rw [← Finset.mul_sum]
    have : ∑ c, V c j ^ 2 = 1 := by
      have := congrFun (congrFun hi.orth j) j
      rw [one_apply_eq] at this
      rw [← this]
      simp only [mul_apply, transpose_apply]
      exact Finset.sum_congr rfl fun c _ => by rw [sq]
    rw [this, mul_one]
  have hcomp : ∀ j, d j ^ 2 = (∑ l, W i l) * wvar (shareOf (W i)) (score x fun c => V c j) := by
    intro j
    rw [← centred_form x (W i) (hW i) (h1 i), svd_mul_self hi]
  have hvt : ∑ j, pcaVariance svd x W i j = (∑ j, d j ^ 2) / ∑ l, W (Fin.last n) l := by
    rw [Finset.sum_div]; exact Finset.sum_congr rfl fun j _ => hv j
  have hpos : 0 < ∑ j, d j ^ 2 := by
    refine lt_of_le_of_ne (Finset.sum_nonneg fun j _ => sq_nonneg _) fun e => h2 i ?_
    rw [hvt, ← e, zero_div]
  refine ⟨?_, ?_, ?_⟩
  · intro j j'
    have := congrFun (congrFun hi.orth (Fin.castLE hK j)) (Fin.castLE hK j')
    simp only [mul_apply, transpose_apply] at this
    simp only [h5]
    rw [this, one_apply]
    simp [Fin.ext_iff]
  · rw [htot] at hpos
    exact (pos_iff_pos_of_mul_pos hpos).1 hsi
  · intro j
    have el : o.loadings j i = fun c => V c (Fin.castLE hK j) := by funext c; exact h5 j i c
    rw [h3, hvt, hv, htot, hcomp, el]
    have hq : 0 < ∑ c, wvar (shareOf (W i)) (fun l => x l c) := by
      rw [htot] at hpos; exact (pos_iff_pos_of_mul_pos hpos).1 hsi
    have e1 := hsi.ne'
    have e2 := hs0.ne'
    have e3 := hq.ne'
    field_simp

/-- **C62, optimality.** Among all unit directions orthogonal to the loadings of the components before it, a component's loadings have
the largest locally weighted variance of scores. -/
theorem C62_components_maximise_variance (svd : Matrix (Fin (n + 1)) (Fin p) ℝ → SvdOut p) (x : Matrix (Fin (n + 1)) (Fin p) ℝ)
    (W : Fin (n + 1) → Fin (n + 1) → ℝ) (hW : ∀ i l, 0 ≤ W i l)
    (hsvd : ∀ i, IsRightSVD (centred x (W i)) (svd (centred x (W i))).d (svd (centred x (W i))).V) (o : PcaOut n p K)
    (h : gwpca svd x W K = .ok o) (i : Fin (n + 1)) (j : Fin K) (u : Fin p → ℝ) (hu : ∑ c, u c ^ 2 = 1)
    (hperp : ∀ j', j' < j → ∑ c, o.loadings j' i c * u c = 0) :
    wvar (shareOf (W i)) (score x u) ≤ wvar (shareOf (W i)) (score x (o.loadings j i)) := by
  obtain ⟨-, hK, h1, -, -, -, h5⟩ := gwpca_ok h
  have hsi : 0 < ∑ l, W i l := lt_of_le_of_ne (Finset.sum_nonneg fun l _ => hW _ l) (Ne.symm (h1 _))
  have hi := hsvd i
  have el : o.loadings j i = fun c => (svd (centred x (W i))).V c (Fin.castLE hK j) := by funext c; exact h5 j i c
  obtain ⟨e1, e2⟩ := svd_expand hi u
  have key : (∑ l, W i l) * wvar (shareOf (W i)) (score x u) ≤ (∑ l, W i l) * wvar (shareOf (W i)) (score x (o.loadings j i)) := by
    rw [el, ← centred_form x (W i) (hW i) (h1 i), ← centred_form x (W i) (hW i) (h1 i), e1, svd_mul_self hi]
    calc ∑ q, (svd (centred x (W i))).d q ^ 2 * (∑ c, (svd (centred x (W i))).V c q * u c) ^ 2
        ≤ ∑ q, (svd (centred x (W i))).d (Fin.castLE hK j) ^ 2 * (∑ c, (svd (centred x (W i))).V c q * u c) ^ 2 := by
          refine Finset.sum_le_sum fun q _ => ?_
          by_cases hq : q < Fin.castLE hK j
          · have hlt : q.val < j.val := hq
            have := hperp ⟨q.val, by omega⟩ hlt
            have e : (∑ c, (svd (centred x (W i))).V c q * u c) = 0 := by
              rw [← this]
              exact Finset.sum_congr rfl fun c _ => by rw [h5]; rfl
            rw [e]; simp
          · refine mul_le_mul_of_nonneg_right ?_ (sq_nonneg _)
            exact pow_le_pow_left₀ (hi.nonneg q) (hi.anti (not_lt.1 hq)) 2
      _ = (svd (centred x (W i))).d (Fin.castLE hK j) ^ 2 := by rw [← Finset.mul_sum, e2, hu, mul_one]
  exact le_of_mul_le_mul_left key hsi

/-- **C62, standard deviations (partial).** The reported standard deviation of a component is the locally weighted one only up to the
factor `√(total weight at the location / total weight at the last location)`; it is right at the last location, and everywhere if
all locations have the same total weight. -/
theorem C62_sdev_partial (svd : Matrix (Fin (n + 1)) (Fin p) ℝ → SvdOut p) (x : Matrix (Fin (n + 1)) (Fin p) ℝ)
    (W : Fin (n + 1) → Fin (n + 1) → ℝ) (hW : ∀ i l, 0 ≤ W i l)
    (hsvd : ∀ i, IsRightSVD (centred x (W i)) (svd (centred x (W i))).d (svd (centred x (W i))).V) (o : PcaOut n p K)
    (h : gwpca svd x W K = .ok o) (i : Fin (n + 1)) (j : Fin K) (j' : Fin p) (hj : j'.val = j.val) :
    o.sdev i j' ^ 2 * ∑ l, W (Fin.last n) l = (∑ l, W i l) * wvar (shareOf (W i)) (score x (o.loadings j i)) := by
  obtain ⟨-, hK, h1, -, -, h4, h5⟩ := gwpca_ok h
  have hs0 : 0 < ∑ l, W (Fin.last n) l := lt_of_le_of_ne (Finset.sum_nonneg fun l _ => hW _ l) (Ne.symm (h1 _))
  have ej : j' = Fin.castLE hK j := Fin.ext hj
  have el : o.loadings j i = fun c => (svd (centred x (W i))).V c j' := by funext c; rw [ej]; exact h5 j i c
  rw [el, ← centred_form x (W i) (hW i) (h1 i), svd_mul_self (hsvd i), h4, pcaVariance_eq svd x W (hW _) i,
    Real.sq_sqrt (by positivity), div_mul_cancel₀ _ hs0.ne']

theorem exists_first_max (v : Fin p → ℝ) (hp : 0 < p) : ∃ c, IsFirstMax v c := by
  haveI : NeZero p := ⟨hp.ne'⟩
  obtain ⟨c0, -, hc0⟩ := Finset.exists_max_image Finset.univ v ⟨0, Finset.mem_univ _⟩
  obtain ⟨c, hc, hmin⟩ := Finset.exists_min_image (Finset.univ.filter fun c => ∀ c', v c' ≤ v c) id
    ⟨c0, Finset.mem_filter.2 ⟨Finset.mem_univ _, fun c' => hc0 c' (Finset.mem_univ _)⟩⟩
  have hmax := (Finset.mem_filter.1 hc).2
  refine ⟨c, hmax, fun c' hlt => lt_of_le_of_ne (hmax c') fun e => ?_⟩
  have := hmin c' (Finset.mem_filter.2 ⟨Finset.mem_univ _, fun q => (hmax q).trans_eq e.symm⟩)
  exact absurd hlt (not_lt.2 this)

theorem isFirstMax_unique {v : Fin p → ℝ} {c c' : Fin p} (h : IsFirstMax v c) (h' : IsFirstMax v c') : c = c' := by
  rcases lt_trichotomy c c' with hlt | rfl | hlt
  · exact absurd (h'.2 c hlt) (not_lt.2 (h.1 c'))
  · rfl
  · exact absurd (h.2 c' hlt) (not_lt.2 (h'.1 c))

theorem gwpca_winner {svd : Matrix (Fin (n + 1)) (Fin p) ℝ → SvdOut p} {x : Matrix (Fin (n + 1)) (Fin p) ℝ}
    {W : Fin (n + 1) → Fin (n + 1) → ℝ} {o : PcaOut n p K} (h : gwpca svd x W K = .ok o) (hK : 0 < K) (i : Fin (n + 1)) :
    IsFirstMax (fun c => o.loadings ⟨0, hK⟩ i c) (o.winner i) := by
  unfold gwpca at h
  split at h
  · cases h
  · split at h
    · rename_i hKp
      split at h
      · cases h
      · simp only [Res.ok.injEq] at h
        subst h
        have hex := exists_first_max (fun c => (svd (centred x (W i))).V c ⟨0, by omega⟩) (by omega)
        simp only [dif_pos hex]
        exact hex.choose_spec
    · cases h

/-- **C63.** The winner of a location is a variable with the largest loading (with its sign) on the first component. -/
theorem C63_winner_has_largest_loading (svd : Matrix (Fin (n + 1)) (Fin p) ℝ → SvdOut p) (x : Matrix (Fin (n + 1)) (Fin p) ℝ)
    (W : Fin (n + 1) → Fin (n + 1) → ℝ) (o : PcaOut n p K) (h : gwpca svd x W K = .ok o) (hK : 0 < K) (i : Fin (n + 1)) (c : Fin p) :
    o.loadings ⟨0, hK⟩ i c ≤ o.loadings ⟨0, hK⟩ i (o.winner i) := (gwpca_winner h hK i).1 c

/-- **C62, errors.** Asking for no component or for more than there are variables is an out-of-bounds error (`isValid()` does not notice the
latter), and data with fewer observations than variables are rejected with a size error. -/
theorem C62_errors (svd : Matrix (Fin (n + 1)) (Fin p) ℝ → SvdOut p) (x : Matrix (Fin (n + 1)) (Fin p) ℝ)
    (W : Fin (n + 1) → Fin (n + 1) → ℝ) (K : ℕ) :
    (n + 1 < p → gwpca svd x W K = .throw .size) ∧ (p ≤ n + 1 → (K = 0 ∨ p < K) → gwpca svd x W K = .throw .bounds) := by
  constructor
  · intro h; unfold gwpca; rw [if_pos h]
  · intro h hK; unfold gwpca
    rw [if_neg (by omega), dif_neg (by omega)]

/-! ### Two-variable example: the sign of the singular vectors decides about the winner -/

/-- Two observations. -/
def pcaX : Matrix (Fin 2) (Fin 2) ℝ := !![3, -4; -3, 4]

/-- A singular value decomposition, with either sign. -/
noncomputable def pcaSvd (sgn : ℝ) : SvdOut 2 := ⟨![Real.sqrt 50, 0], !![sgn * (3 / 5), 4 / 5; sgn * (-4 / 5), 3 / 5]⟩

theorem pcaX_centred : centred (n := 1) pcaX (fun _ => 1) = pcaX := by
  ext l c
  fin_cases l <;> fin_cases c <;> simp [centred, pcaMean, pcaX, Fin.sum_univ_two] 

theorem pcaSvd_ok (sgn : ℝ) (hs : sgn * sgn = 1) : IsRightSVD pcaX (pcaSvd sgn).d (pcaSvd sgn).V := by
  have h50 : Real.sqrt 50 ^ 2 = 50 := Real.sq_sqrt (by norm_num)
  refine ⟨?_, ?_, ?_, ?_⟩
  · intro j; fin_cases j <;> simp [pcaSvd]
  · intro j j' h
    fin_cases j <;> fin_cases j' <;> simp [pcaSvd] at h ⊢
  · ext a b
    fin_cases a <;> fin_cases b <;> simp [pcaSvd, Matrix.mul_apply, Fin.sum_univ_two] <;> nlinarith
  · ext a b
    fin_cases a <;> fin_cases b <;> simp [pcaSvd, pcaX, Matrix.mul_apply, Fin.sum_univ_two] <;> nlinarith

theorem ex_gwpca (sgn : ℝ) (hs : sgn * sgn = 1) : ∃ o, gwpca (fun _ => pcaSvd sgn) pcaX (fun _ _ => 1) 2 = .ok o := by
  have h50 : Real.sqrt 50 * Real.sqrt 50 = 50 := Real.mul_self_sqrt (by norm_num)
  unfold gwpca
  rw [if_neg (by norm_num), dif_pos ⟨by norm_num, le_rfl⟩, if_neg]
  · exact ⟨_, rfl⟩
  · rintro (⟨i, hi⟩ | ⟨i, hi⟩)
    · simp at hi
    · rw [Fin.sum_univ_two, pcaVariance_eq _ _ _ (fun _ => by norm_num), pcaVariance_eq _ _ _ (fun _ => by norm_num)] at hi
      simp [pcaSvd] at hi

/-- **C63 (refuted).** The winner is not a function of the data: two equally valid singular value decompositions of the same data — they
differ in the sign of a singular vector, which is arbitrary — give different winners, and with the first of them the winner is the
variable with the smaller loading in absolute value. -/
theorem C63_winner_depends_on_sign : ∃ o o' : PcaOut 1 2 2,
    (∀ sgn : ℝ, sgn * sgn = 1 → IsRightSVD (centred (n := 1) pcaX fun _ => 1) (pcaSvd sgn).d (pcaSvd sgn).V) ∧
    gwpca (fun _ => pcaSvd 1) pcaX (fun _ _ => 1) 2 = .ok o ∧ gwpca (fun _ => pcaSvd (-1)) pcaX (fun _ _ => 1) 2 = .ok o' ∧
    o.winner 0 = 0 ∧ o'.winner 0 = 1 ∧ |o.loadings 0 0 0| < |o.loadings 0 0 1| := by
  obtain ⟨o, ho⟩ := ex_gwpca 1 (by norm_num)
  obtain ⟨o', ho'⟩ := ex_gwpca (-1) (by norm_num)
  have hl : ∀ c, o.loadings 0 0 c = (pcaSvd 1).V c 0 := fun c => by
    obtain ⟨-, hK, -, -, -, -, h5⟩ := gwpca_ok ho; exact h5 0 0 c
  have hl' : ∀ c, o'.loadings 0 0 c = (pcaSvd (-1)).V c 0 := fun c => by
    obtain ⟨-, hK, -, -, -, -, h5⟩ := gwpca_ok ho'; exact h5 0 0 c
  refine ⟨o, o', fun sgn hs => by rw [pcaX_centred]; exact pcaSvd_ok sgn hs, ho, ho', ?_, ?_, ?_⟩
  · refine isFirstMax_unique (gwpca_winner ho (by norm_num) 0) ⟨fun c => ?_, fun c hc => absurd hc (by simp)⟩
    change o.loadings 0 0 c ≤ o.loadings 0 0 0
    rw [hl, hl]
    fin_cases c <;> norm_num [pcaSvd]
  · refine isFirstMax_unique (gwpca_winner ho' (by norm_num) 0) ⟨fun c => ?_, fun c hc => ?_⟩
    · change o'.loadings 0 0 c ≤ o'.loadings 0 0 1
      rw [hl', hl']
      fin_cases c <;> norm_num [pcaSvd]
    · change o'.loadings 0 0 c < o'.loadings 0 0 1
      rw [hl', hl']
      fin_cases c
      · norm_num [pcaSvd]
      · simp at hc
  · rw [hl, hl]; norm_num [pcaSvd, abs_of_pos]

/-- The general theorems apply to this example. -/
example : ∃ o : PcaOut 1 2 2, gwpca (fun _ => pcaSvd 1) pcaX (fun _ _ => 1) 2 = .ok o ∧ ∑ j, o.pv 0 j = 100 := by
  obtain ⟨o, ho⟩ := ex_gwpca 1 (by norm_num)
  refine ⟨o, ho, (C53_percentages _ _ _ (fun _ _ => by norm_num) (fun i => ?_) o ho 0).2.2.2 rfl⟩
  have := pcaSvd_ok 1 (by norm_num)
  rw [← pcaX_centred] at this
  exact this

/-! ### One variable: the standard deviation is scaled by the wrong total weight -/

/-- One variable: the only singular value is the length of the column. -/
noncomputable def svdOne {n : ℕ} (A : Matrix (Fin n) (Fin 1) ℝ) : SvdOut 1 := ⟨fun _ => Real.sqrt (∑ l, A l 0 ^ 2), 1⟩

theorem svdOne_ok {n : ℕ} (A : Matrix (Fin n) (Fin 1) ℝ) : IsRightSVD A (svdOne A).d (svdOne A).V := by
  refine ⟨fun j => Real.sqrt_nonneg _, fun j j' _ => le_rfl, by simp [svdOne], ?_⟩
  ext a b
  have ha : a = 0 := Subsingleton.elim _ _
  have hb : b = 0 := Subsingleton.elim _ _
  subst ha hb
  simp only [svdOne, diagonal_apply_eq]
  rw [Matrix.mul_one, Real.sq_sqrt (Finset.sum_nonneg fun l _ => sq_nonneg _), mul_apply]
  exact Finset.sum_congr rfl fun l _ => by rw [transpose_apply, sq]

/-- Two observations of one variable. -/
def oneX : Matrix (Fin 2) (Fin 1) ℝ := !![1; -1]

/-- Weights 4 at the first location, 1 at the second. -/
def oneW : Fin 2 → Fin 2 → ℝ := fun i _ => if i = 0 then 4 else 1

/-- **C62 (refuted for the standard deviations).** Two observations 1 and -1, with weights 4 at the first location and 1 at the second:
the locally weighted standard deviation is 1 at both, but 2 is reported at the first. -/
theorem C62_sdev_wrong : ∃ o : PcaOut 1 1 1, gwpca svdOne oneX oneW 1 = .ok o ∧
    wvar (shareOf (oneW 0)) (score oneX (o.loadings 0 0)) = 1 ∧ o.sdev 0 0 = 2 := by
  have hW : ∀ i l, 0 ≤ oneW i l := by
    intro i l; unfold oneW; split <;> norm_num
  have hlast : ∑ l, oneW (Fin.last 1) l = 2 := by
    rw [Fin.sum_univ_two]; simp [oneW]; norm_num
  have hc : ∀ (i : Fin 2) (l : Fin 2), centred (n := 1) oneX (oneW i) l (0 : Fin 1) ^ 2 = oneW i 0 := by
    intro i l
    have h4 : Real.sqrt 4 ^ 2 = 4 := Real.sq_sqrt (by norm_num)
    fin_cases i <;> fin_cases l <;> simp [centred, pcaMean, Fin.sum_univ_two, oneX, oneW]
  have hv : ∀ i : Fin 2, pcaVariance (n := 1) svdOne oneX oneW i 0 = oneW i 0 := by
    intro i
    rw [pcaVariance_eq svdOne oneX oneW (hW _) i 0, hlast]
    simp only [svdOne]
    rw [Real.sq_sqrt (Finset.sum_nonneg fun l _ => sq_nonneg _)]
    have : ∑ l, centred (n := 1) oneX (oneW i) l (0 : Fin 1) ^ 2 = oneW i 0 + oneW i 0 := by
      rw [Fin.sum_univ_two, hc i 0, hc i 1]
    rw [this]; ring
  have hex : ∃ o : PcaOut 1 1 1, gwpca svdOne oneX oneW 1 = .ok o := by
    unfold gwpca
    rw [if_neg (by norm_num), dif_pos ⟨by norm_num, le_rfl⟩, if_neg]
    · exact ⟨_, rfl⟩
    · rintro (⟨i, hi⟩ | ⟨i, hi⟩)
      · rw [Fin.sum_univ_two] at hi
        fin_cases i <;> norm_num [oneW] at hi
      · rw [Fin.sum_univ_one, hv] at hi
        fin_cases i <;> norm_num [oneW] at hi
  obtain ⟨o, ho⟩ := hex
  have hsd : o.sdev 0 0 = 2 := by
    obtain ⟨-, -, -, -, -, h4, -⟩ := gwpca_ok ho
    rw [h4, hv]
    have : oneW 0 0 = 2 ^ 2 := by norm_num [oneW]
    rw [this, Real.sqrt_sq (by norm_num)]
  refine ⟨o, ho, ?_, hsd⟩
  have := C62_sdev_partial svdOne oneX oneW hW (fun i => svdOne_ok _) o ho 0 0 0 rfl
  have h0 : ∑ l, oneW 0 l = 8 := by rw [Fin.sum_univ_two]; norm_num [oneW]
  rw [hsd, hlast, h0] at this
  linarith

end Verif.Props

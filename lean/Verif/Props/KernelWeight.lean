import Verif.Spec.KernelWeight
import Verif.Props.GWRRidgeRun
import Verif.Props.Geo

/-! Weights from coordinates, for every kind of bandwidth. -/

namespace Verif.Props
open Verif Verif.Model Verif.Spec Classical

variable {n m : ℕ}

theorem weight_of_radius {b : BandwidthWeight} {v : Fin n → ℝ} {r : ℝ} (hn : b.mAdaptive = true → n < 2147483648) (h : IsRadius b v r)
    (hr : 0 < r) : b.weight v = .ok fun l => kernelFormula b.mKernel r (v l) := by
  rw [← C97_fixed_kernel_formula b.mKernel r hr v]
  obtain ⟨bw, ad, kernel⟩ := b
  unfold IsRadius at h
  cases ad with
  | false =>
    simp only [Bool.false_eq_true, if_false] at h
    rw [h]
  | true =>
    simp only [if_true] at h
    rcases h with ⟨q, s, t, t', h1, h2, rfl, h3, h4, h5, h6, rfl⟩ | ⟨h1, t, h2, rfl⟩
    · exact C04_adaptive_fractional kernel v q s t t' h1 h2 (by have := hn rfl; omega) h3 h4 h5 h6
    · obtain ⟨i, -⟩ := h2.1
      exact C04_adaptive_large kernel v bw t i.pos h1 h2

theorem radius_exists {b : BandwidthWeight} {v : Fin n → ℝ} (h0 : 0 < n) (h : b.mAdaptive = true → 1 ≤ b.mBandwidth) : ∃ r, IsRadius b v r := by
  obtain ⟨bw, ad, kernel⟩ := b
  unfold IsRadius
  cases ad with
  | false => exact ⟨bw, by simp⟩
  | true =>
    have hb : 1 ≤ bw := h rfl
    simp only [if_true]
    by_cases hl : (n : ℝ) ≤ bw
    · haveI : NeZero n := ⟨h0.ne'⟩
      obtain ⟨i, hi⟩ := Finite.exists_max v
      exact ⟨_, Or.inr ⟨hl, v i, ⟨⟨i, rfl⟩, hi⟩, rfl⟩⟩
    · push Not at hl
      have hfl : (⌊bw⌋₊ : ℝ) ≤ bw := Nat.floor_le (by linarith)
      have h1 : 1 ≤ ⌊bw⌋₊ := Nat.le_floor (by simpa using hb)
      have h2 : ⌊bw⌋₊ < n := by
        have : (⌊bw⌋₊ : ℝ) < n := lt_of_le_of_lt hfl hl
        exact_mod_cast this
      exact ⟨_, Or.inl ⟨⌊bw⌋₊, bw - ⌊bw⌋₊, _, _, h1, h2, by ring, by linarith, by linarith [Nat.lt_floor_add_one bw],
        sorted_get_isKth v h1 h2.le, sorted_get_isKth v (by omega) h2, rfl⟩⟩

/-- The order statistics of a family are unique. -/
theorem kth_unique {v : Fin n → ℝ} {q : ℕ} {t t' : ℝ} (h : IsKthSmallest v q t) (h' : IsKthSmallest v q t') : t = t' := by
  by_contra hne
  wlog hlt : t < t' generalizing t t'
  · exact this h' h (Ne.symm hne) (lt_of_le_of_ne (not_lt.1 hlt) (Ne.symm hne))
  have := Set.ncard_le_ncard (show {i | v i ≤ t} ⊆ {i | v i < t'} from fun i (hi : v i ≤ t) => lt_of_le_of_lt hi hlt) (Set.toFinite _)
  have := h.2.2; have := h'.2.1
  omega

theorem radius_unique {b : BandwidthWeight} {v : Fin n → ℝ} {r r' : ℝ} (h : IsRadius b v r) (h' : IsRadius b v r') : r = r' := by
  obtain ⟨bw, ad, kernel⟩ := b
  unfold IsRadius at h h'
  cases ad with
  | false => simp at h h'; rw [h, h']
  | true =>
    simp only [if_true] at h h'
    rcases h with ⟨q, s, t, t', h1, h2, h3, h4, h5, h6, h7, h8⟩ | ⟨h1, t, h2, h3⟩
    · rcases h' with ⟨q', s', u, u', g1, g2, g3, g4, g5, g6, g7, g8⟩ | ⟨g1, u, g2, g3⟩
      · have hq : q = q' := by
          have e : (q : ℝ) + s = q' + s' := by rw [← h3, ← g3]
          have a1 : (q : ℝ) < q' + 1 := by linarith
          have a2 : (q' : ℝ) < q + 1 := by linarith
          have : q < q' + 1 := by exact_mod_cast a1
          have : q' < q + 1 := by exact_mod_cast a2
          omega
        subst hq
        have hs : s = s' := by linarith
        rw [h8, g8, hs, kth_unique h6 g6, kth_unique h7 g7]
      · exfalso
        have : ((q + 1 : ℕ) : ℝ) ≤ n := by exact_mod_cast h2
        push_cast at this
        linarith
    · rcases h' with ⟨q', s', u, u', g1, g2, g3, g4, g5, g6, g7, g8⟩ | ⟨g1, u, g2, g3⟩
      · exfalso
        have : ((q' + 1 : ℕ) : ℝ) ≤ n := by exact_mod_cast g2
        push_cast at this
        linarith
      · obtain ⟨⟨i, hi⟩, hm⟩ := h2
        obtain ⟨⟨i', hi'⟩, hm'⟩ := g2
        have : t = u := le_antisymm (hi ▸ hm' i) (hi' ▸ hm i')
        rw [h3, g3, this]

theorem mapDistance_calc {geo : Bool} {at' obs : DynMat} {dist : Fin m → Fin n → ℝ} :
    IsMapDistance geo at' obs dist ↔ ∀ (i : Fin m) (l : Fin n), crsCalc geo (at'.val i) (obs.val l) = .ok (dist i l) := by
  unfold IsMapDistance
  cases geo with
  | true => simp [crsCalc]
  | false =>
    simp only [Bool.false_eq_true, if_false, crsCalc]
    refine forall_congr' fun i => forall_congr' fun l => ?_
    have e : euclid (at'.val i) (obs.val l) = plane (at'.val i) (obs.val l) := by simp only [euclid, plane, sq]
    rw [e]
    exact ⟨fun h => by rw [h], fun h => (Res.ok.inj h).symm⟩

/-- The weights of a run are the kernel weights of the map distances. -/
theorem kernelRows {geo : Bool} {at' obs : DynMat} {b : BandwidthWeight} {dist : Fin m → Fin n → ℝ} (hm : at'.nRows = m) (hn : obs.nRows = n)
    (hd : IsMapDistance geo at' obs dist) (hb : UsableRadius b dist) (h0 : 0 < m → 0 < n) :
    ∃ W, weightRows ⟨geo, some (at', obs)⟩ b n m = .ok W ∧ IsKernelWeight b dist W ∧ ∀ i l, 0 ≤ W i l := by
  rw [mapDistance_calc] at hd
  choose r hr using fun i => radius_exists (b := b) (v := dist i) (h0 i.pos) fun ha => (hb.1 ha).1
  refine ⟨fun i l => kernelFormula b.mKernel (r i) (dist i l), weightRows_eq_ok.2 fun i => ⟨by rw [hm]; exact i.isLt, hn, dist i, hd i, ?_⟩,
    fun i => ⟨r i, hr i, fun l => rfl⟩, fun i l => kernelFormula_nonneg _ (hb.2 i _ (hr i)) _⟩
  exact weight_of_radius (fun ha => (hb.1 ha).2) (hr i) (hb.2 i _ (hr i))

/-- Kernel weights are unique. -/
theorem kernelWeight_unique {b : BandwidthWeight} {dist w w' : Fin m → Fin n → ℝ} (h : IsKernelWeight b dist w) (h' : IsKernelWeight b dist w') :
    w = w' := by
  funext i l
  obtain ⟨r, hr, e⟩ := h i
  obtain ⟨r', hr', e'⟩ := h' i
  rw [e, e', radius_unique hr hr']

theorem selfDistance {geo : Bool} {c : DynMat} {dist : Fin n → Fin n → ℝ} (h : IsMapDistance geo c c dist) (i : Fin n) : dist i i = 0 := by
  rw [mapDistance_calc] at h
  have := h i i
  cases geo with
  | false =>
    simp only [crsCalc, Bool.false_eq_true, if_false, euclid] at this
    simpa using (Res.ok.inj this).symm
  | true =>
    simp only [crsCalc, if_true, spGcdist] at this
    rw [if_pos ⟨by norm_num [doubleEps], Or.inl (by norm_num [doubleEps])⟩] at this
    exact (Res.ok.inj this).symm

theorem kernel_zero (kernel : KernelType) {bw : ℝ} (hb : 0 < bw) : kernelFormula kernel bw 0 = 1 := by
  cases kernel <;> simp [kernelFormula, hb]

/-- The observations have weight 1 at their own places. -/
theorem selfWeight {geo : Bool} {c : DynMat} {b : BandwidthWeight} {dist W : Fin n → Fin n → ℝ} (hd : IsMapDistance geo c c dist)
    (hb : UsableRadius b dist) (h : IsKernelWeight b dist W) (i : Fin n) : W i i = 1 := by
  obtain ⟨r, hr, e⟩ := h i
  rw [e, selfDistance hd, kernel_zero _ (hb.2 i r hr)]

theorem kernelWeight_nonneg {b : BandwidthWeight} {dist W : Fin m → Fin n → ℝ} (hb : UsableRadius b dist) (h : IsKernelWeight b dist W) (i : Fin m)
    (l : Fin n) : 0 ≤ W i l := by
  obtain ⟨r, hr, e⟩ := h i
  rw [e]; exact kernelFormula_nonneg _ (hb.2 i r hr) _

theorem kernelWeight_le_one {b : BandwidthWeight} {dist W : Fin m → Fin n → ℝ} (hb : UsableRadius b dist) (hd : ∀ i l, 0 ≤ dist i l)
    (h : IsKernelWeight b dist W) (i : Fin m) (l : Fin n) : W i l ≤ 1 := by
  obtain ⟨r, hr, e⟩ := h i
  have h0 := hb.2 i r hr
  have hq : 0 ≤ dist i l / r := div_nonneg (hd i l) h0.le
  rw [e]
  cases b.mKernel <;> simp only [kernelFormula]
  · exact Real.exp_le_one_iff.2 (by nlinarith [sq_nonneg (dist i l / r)])
  · exact Real.exp_le_one_iff.2 (by linarith)
  · split
    · rename_i hlt
      have h1 : dist i l / r ≤ 1 := (div_le_one h0).2 hlt.le
      have : (dist i l / r) ^ 2 ≤ 1 := pow_le_one₀ hq h1
      exact pow_le_one₀ (by linarith) (by linarith [sq_nonneg (dist i l / r)])
    · exact zero_le_one
  · split
    · rename_i hlt
      have h1 : dist i l / r ≤ 1 := (div_le_one h0).2 hlt.le
      have : (dist i l / r) ^ 3 ≤ 1 := pow_le_one₀ hq h1
      exact pow_le_one₀ (by linarith) (by linarith [pow_nonneg hq 3])
    · exact zero_le_one
  · split
    · exact le_rfl
    · exact zero_le_one

theorem mapDistance_nonneg {geo : Bool} {at' obs : DynMat} {dist : Fin m → Fin n → ℝ} (h : IsMapDistance geo at' obs dist) (i : Fin m) (l : Fin n) :
    0 ≤ dist i l := by
  cases geo with
  | false =>
    simp only [IsMapDistance, Bool.false_eq_true, if_false] at h
    rw [h]; exact Real.sqrt_nonneg _
  | true =>
    simp only [IsMapDistance, if_true] at h
    have e := h i l
    by_cases hs : gcShortcut (obs.val l 0) (at'.val i 0) (obs.val l 1) (at'.val i 1)
    · rw [spGcdist_shortcut hs] at e; rw [← Res.ok.inj e]
    · rcases spGcdist_general hs with ⟨-, h⟩ | ⟨-, -, d, h, l1, -, l3⟩
      · rw [h] at e; cases e
      · rw [h] at e
        rw [← Res.ok.inj e]
        have : (0 : ℝ) ≤ 1 - 5 / 2 * flattening := by norm_num [flattening]
        exact (mul_nonneg this l3.le).trans l1

theorem radius_scale {b b' : BandwidthWeight} {v v' : Fin n → ℝ} {c r : ℝ} (hc : 0 < c) (hv : ∀ l, v' l = c * v l) (ha : b'.mAdaptive = b.mAdaptive)
    (hbw : b'.mBandwidth = if b.mAdaptive = true then b.mBandwidth else c * b.mBandwidth) (h : IsRadius b v r) : IsRadius b' v' (c * r) := by
  have hk : ∀ q t, IsKthSmallest v q t → IsKthSmallest v' q (c * t) := by
    rintro q t ⟨⟨i, hi⟩, h1, h2⟩
    refine ⟨⟨i, by rw [hv, hi]⟩, ?_, ?_⟩
    · simpa only [hv, mul_lt_mul_iff_right₀ hc] using h1
    · simpa only [hv, mul_le_mul_iff_right₀ hc] using h2
  unfold IsRadius at h ⊢
  rw [ha]
  by_cases hA : b.mAdaptive = true
  · rw [if_pos hA] at h ⊢
    rw [if_pos hA] at hbw
    rcases h with ⟨q, s, t, t', h1, h2, h3, h4, h5, h6, h7, h8⟩ | ⟨h1, t, ⟨⟨i, hi⟩, hm⟩, h3⟩
    · exact Or.inl ⟨q, s, c * t, c * t', h1, h2, by rw [hbw, h3], h4, h5, hk _ _ h6, hk _ _ h7, by rw [h8]; ring⟩
    · exact Or.inr ⟨by rw [hbw]; exact h1, c * t, ⟨⟨i, by rw [hv, hi]⟩, fun l => by rw [hv]; exact mul_le_mul_of_nonneg_left (hm l) hc.le⟩,
        by rw [hbw, h3]; ring⟩
  · rw [if_neg hA] at h ⊢
    rw [if_neg hA] at hbw
    rw [hbw, h]

theorem kernelFormula_scale (kernel : KernelType) {c : ℝ} (hc : 0 < c) (r d : ℝ) : kernelFormula kernel (c * r) (c * d) = kernelFormula kernel r d := by
  cases kernel <;> simp only [kernelFormula, mul_div_mul_left _ _ hc.ne', mul_lt_mul_iff_right₀ hc]

/-- Kernel weights do not change if all distances, and a fixed bandwidth with them, are multiplied by the same number. -/
theorem kernelWeight_scale {b b' : BandwidthWeight} {dist dist' w : Fin m → Fin n → ℝ} {c : ℝ} (hc : 0 < c) (hd : ∀ i l, dist' i l = c * dist i l)
    (hk : b'.mKernel = b.mKernel) (ha : b'.mAdaptive = b.mAdaptive)
    (hbw : b'.mBandwidth = if b.mAdaptive = true then b.mBandwidth else c * b.mBandwidth) (h : IsKernelWeight b dist w) : IsKernelWeight b' dist' w := by
  intro i
  obtain ⟨r, hr, e⟩ := h i
  exact ⟨c * r, radius_scale hc (hd i) ha hbw hr, fun l => by rw [e, hd, hk, kernelFormula_scale _ hc]⟩

theorem usableRadius_scale {b b' : BandwidthWeight} {dist dist' : Fin m → Fin n → ℝ} {c : ℝ} (hc : 0 < c) (hd : ∀ i l, dist' i l = c * dist i l)
    (ha : b'.mAdaptive = b.mAdaptive) (hbw : b'.mBandwidth = if b.mAdaptive = true then b.mBandwidth else c * b.mBandwidth)
    (h : UsableRadius b dist) : UsableRadius b' dist' := by
  refine ⟨fun hA => ?_, fun i r hr => ?_⟩
  · rw [ha] at hA
    rw [hbw, if_pos hA]
    exact h.1 hA
  · have hc' : 0 < c⁻¹ := inv_pos.2 hc
    have := radius_scale (b := b') (b' := b) hc' (v' := dist i) (fun l => by rw [hd, ← mul_assoc, inv_mul_cancel₀ hc.ne', one_mul]) ha.symm (by
      rw [hbw, ha]
      by_cases hA : b.mAdaptive = true
      · simp [hA]
      · simp [hA, ← mul_assoc, inv_mul_cancel₀ hc.ne']) hr
    exact (mul_pos_iff_of_pos_left hc').1 (h.2 i _ this)

/-- Every positive fixed bandwidth is usable. -/
theorem usable_fixed {bw : ℝ} (h : 0 < bw) (kernel : KernelType) (dist : Fin m → Fin n → ℝ) : UsableRadius ⟨bw, false, kernel⟩ dist :=
  ⟨by simp, fun i r hr => by simp only [IsRadius, Bool.false_eq_true, if_false] at hr; rw [hr]; exact h⟩

/-- Every adaptive bandwidth of at least 2 is usable for observations at different places. -/
theorem usable_distinct {bw : ℝ} (h : 2 ≤ bw) (h1 : 2 ≤ n) (h2 : n < 2147483648) {kernel : KernelType} {dist : Fin n → Fin n → ℝ}
    (hd : ∀ i l, i ≠ l → 0 < dist i l) : UsableRadius ⟨bw, true, kernel⟩ dist := by
  have hk : ∀ i q t, 2 ≤ q → IsKthSmallest (dist i) q t → 0 < t := by
    rintro i q t hq ⟨-, -, h3⟩
    by_contra ht
    have : {l | dist i l ≤ t} ⊆ {i} := fun l (hl : dist i l ≤ t) => by
      by_contra hne
      exact absurd (hd i l (Ne.symm hne)) (not_lt.2 (hl.trans (not_lt.1 ht)))
    have := Set.ncard_le_ncard this (Set.finite_singleton i)
    rw [Set.ncard_singleton] at this
    omega
  refine ⟨fun _ => ⟨by linarith, h2⟩, fun i r hr => ?_⟩
  simp only [IsRadius, if_true] at hr
  rcases hr with ⟨q, s, t, t', q1, q2, q3, s0, s1, h6, h7, rfl⟩ | ⟨h3, t, ⟨-, hm⟩, rfl⟩
  · have hq : 2 ≤ q := by
      have : (1 : ℝ) < q := by linarith
      have : 1 < q := by exact_mod_cast this
      omega
    have := hk i q t hq h6
    have := hk i (q + 1) t' (by omega) h7
    nlinarith
  · have : ∃ l, i ≠ l := by
      have : Nontrivial (Fin n) := Fin.nontrivial_iff_two_le.2 h1
      obtain ⟨l, hl⟩ := exists_ne i
      exact ⟨l, hl.symm⟩
    obtain ⟨l, hl⟩ := this
    have : 0 < t := lt_of_lt_of_le (hd i l hl) (hm l)
    have hn : (0 : ℝ) < n := by exact_mod_cast i.pos
    have : 0 < bw := by linarith
    positivity

end Verif.Props

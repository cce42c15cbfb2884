import Verif.Model.Kernel
import Verif.Spec.OrderStat
import Mathlib.Tactic.Linarith
import Mathlib.Tactic.Positivity
import Mathlib.Tactic.NormNum
import Mathlib.Tactic.Ring
import Mathlib.Tactic.FieldSimp

namespace Verif.Model
open Verif

theorem kernelVec_eq_ok {k : KernelType} {n : ℕ} {dist : Fin n → ℝ} {bw : ℝ} {w : Fin n → ℝ} :
    kernelVec k dist bw = .ok w ↔ ∀ i, kernelAt k (dist i) bw = .ok (w i) := by
  exact Res.tabulate_eq_ok

theorem kernelVec_isOk {k : KernelType} {n : ℕ} {dist : Fin n → ℝ} {bw : ℝ}
    (h : ∀ i, ∃ w, kernelAt k (dist i) bw = .ok w) : ∃ w, kernelVec k dist bw = .ok w := by
  choose w hw using h
  exact ⟨w, kernelVec_eq_ok.2 hw⟩

/-- The kernel value for a non-zero bandwidth. -/
noncomputable def kval : KernelType → ℝ → ℝ → ℝ
  | .Gaussian, d, b => Real.exp (-(d ^ 2 / (2 * b ^ 2)))
  | .Exponential, d, b => Real.exp (-(d / b))
  | .Bisquare, d, b => if d < b then (1 - (d / b) ^ 2) ^ 2 else 0
  | .Tricube, d, b => if d < b then (1 - (d / b) ^ 3) ^ 3 else 0
  | .Boxcar, d, b => if d < b then 1 else 0

theorem kernelAt_of_ne {k : KernelType} {d b : ℝ} (hb : b ≠ 0) : kernelAt k d b = .ok (kval k d b) := by
  cases k
  · simp only [kernelAt, gaussianKernel, kval, if_neg hb]
    congr 2
    norm_num
    rw [show -(2 * (b * b)) = -(2 * b ^ 2) by ring, div_neg]
    ring_nf
  · simp only [kernelAt, exponentialKernel, kval, if_neg hb]
    congr 2
    ring
  · simp only [kernelAt, bisquareKernel, kval, if_neg hb, less]
    split
    · congr 1; rw [div_pow]; norm_num; ring
    · simp
  · simp only [kernelAt, tricubeKernel, kval, if_neg hb, less]
    split
    · congr 1; rw [div_pow]; norm_num; ring
    · simp
  · simp only [kernelAt, boxcarKernel, kval, less]
    split <;> simp

theorem kval_nonneg {k : KernelType} {d b : ℝ} (hd : 0 ≤ d) : 0 ≤ kval k d b := by
  cases k <;> simp only [kval]
  · positivity
  · positivity
  · split
    · positivity
    · exact le_rfl
  · split
    · rename_i h
      have hb : 0 < b := lt_of_le_of_lt hd h
      have h1 : d / b ≤ 1 := (div_le_one hb).2 h.le
      have h0 : 0 ≤ d / b := by positivity
      have : (d / b) ^ 3 ≤ 1 := pow_le_one₀ h0 h1
      have : 0 ≤ 1 - (d / b) ^ 3 := by linarith
      positivity
    · exact le_rfl
  · split <;> norm_num

/-- Larger distance or smaller bandwidth: smaller weight. -/
theorem kval_mono {k : KernelType} {d d' b b' : ℝ} (hd : 0 ≤ d) (hdd : d ≤ d') (hb : 0 < b') (hbb : b' ≤ b) :
    kval k d' b' ≤ kval k d b := by
  have hb0 : 0 < b := lt_of_lt_of_le hb hbb
  have hd' : 0 ≤ d' := hd.trans hdd
  have hq : d / b ≤ d' / b' := by
    apply div_le_div₀ hd' hdd hb hbb
  have hq0 : 0 ≤ d / b := by positivity
  cases k
  · simp only [kval]
    apply Real.exp_le_exp.2
    apply neg_le_neg
    have := pow_le_pow_left₀ hq0 hq 2
    rw [div_pow, div_pow] at this
    have e1 : d ^ 2 / (2 * b ^ 2) = d ^ 2 / b ^ 2 / 2 := by rw [div_div]; ring_nf
    have e2 : d' ^ 2 / (2 * b' ^ 2) = d' ^ 2 / b' ^ 2 / 2 := by rw [div_div]; ring_nf
    rw [e1, e2]; linarith
  · simp only [kval]
    exact Real.exp_le_exp.2 (neg_le_neg hq)
  · simp only [kval]
    split
    · rename_i h
      have hlt : d < b := by linarith
      rw [if_pos hlt]
      have h1 : d' / b' ≤ 1 := (div_le_one hb).2 h.le
      have a1 : (d' / b') ^ 2 ≤ 1 := pow_le_one₀ (hq0.trans hq) h1
      have a2 := pow_le_pow_left₀ hq0 hq 2
      apply pow_le_pow_left₀ <;> linarith
    · exact kval_nonneg (k := .Bisquare) hd
  · simp only [kval]
    split
    · rename_i h
      have hlt : d < b := by linarith
      rw [if_pos hlt]
      have h1 : d' / b' ≤ 1 := (div_le_one hb).2 h.le
      have a1 : (d' / b') ^ 3 ≤ 1 := pow_le_one₀ (hq0.trans hq) h1
      have a2 := pow_le_pow_left₀ hq0 hq 3
      apply pow_le_pow_left₀ <;> linarith
    · exact kval_nonneg (k := .Tricube) hd
  · simp only [kval]
    split
    · rename_i h
      have hlt : d < b := by linarith
      rw [if_pos hlt]
    · exact kval_nonneg (k := .Boxcar) hd

theorem kval_zero {k : KernelType} {b : ℝ} (hb : 0 < b) : kval k 0 b = 1 := by
  cases k <;> simp [kval, hb]

theorem kval_le_one {k : KernelType} {d b : ℝ} (hd : 0 ≤ d) (hb : 0 < b) : kval k d b ≤ 1 := by
  rw [← kval_zero (k := k) hb]
  exact kval_mono le_rfl hd hb le_rfl

theorem kval_pos_iff {k : KernelType} {d b : ℝ} (hd : 0 ≤ d) (hb : 0 < b) :
    0 < kval k d b ↔ (k = .Gaussian ∨ k = .Exponential ∨ d < b) := by
  cases k
  · simp [kval, Real.exp_pos]
  · simp [kval, Real.exp_pos]
  · simp only [kval]
    constructor
    · intro h; right; right; by_contra hc; simp [hc] at h
    · rintro (h | h | h)
      · cases h
      · cases h
      · rw [if_pos h]
        have h1 : d / b < 1 := (div_lt_one hb).2 h
        have h0 : 0 ≤ d / b := by positivity
        have : (d / b) ^ 2 < 1 := pow_lt_one₀ h0 h1 (by norm_num)
        have : 0 < 1 - (d / b) ^ 2 := by linarith
        positivity
  · simp only [kval]
    constructor
    · intro h; right; right; by_contra hc; simp [hc] at h
    · rintro (h | h | h)
      · cases h
      · cases h
      · rw [if_pos h]
        have h1 : d / b < 1 := (div_lt_one hb).2 h
        have h0 : 0 ≤ d / b := by positivity
        have : (d / b) ^ 3 < 1 := pow_lt_one₀ h0 h1 (by norm_num)
        have : 0 < 1 - (d / b) ^ 3 := by linarith
        positivity
  · simp only [kval]
    constructor
    · intro h; right; right; by_contra hc; simp [hc] at h
    · rintro (h | h | h)
      · cases h
      · cases h
      · rw [if_pos h]; norm_num

/-! ### sorted vectors -/

theorem sortVec_length {n : ℕ} (v : Fin n → ℝ) : (sortVec v).length = n := by
  simp [sortVec]

theorem sortVec_perm {n : ℕ} (v : Fin n → ℝ) : (sortVec v).Perm (List.ofFn v) :=
  List.perm_insertionSort _ _

theorem sortVec_pairwise {n : ℕ} (v : Fin n → ℝ) : (sortVec v).Pairwise (· ≤ ·) :=
  List.pairwise_insertionSort _ _

theorem sortVec_mono {n : ℕ} (v : Fin n → ℝ) {i j : ℕ} (hij : i ≤ j) (hj : j < (sortVec v).length) :
    (sortVec v)[i]'(by omega) ≤ (sortVec v)[j] := by
  rcases Nat.lt_or_ge i j with h | h
  · exact (List.pairwise_iff_getElem.1 (sortVec_pairwise v)) i j (by omega) hj h
  · have : i = j := by omega
    subst this; exact le_rfl

theorem sortVec_mem {n : ℕ} (v : Fin n → ℝ) {x : ℝ} : x ∈ sortVec v ↔ ∃ i, v i = x := by
  rw [(sortVec_perm v).mem_iff, List.mem_ofFn]

theorem ncard_eq_countP {n : ℕ} (v : Fin n → ℝ) (p : ℝ → Prop) [DecidablePred p] :
    {i | p (v i)}.ncard = (sortVec v).countP (fun x => decide (p x)) := by
  rw [(sortVec_perm v).countP_eq]
  have : {i | p (v i)} = ((Finset.univ.filter (fun i => p (v i)) : Finset (Fin n)) : Set (Fin n)) := by
    ext; simp
  rw [this, Set.ncard_coe_finset]
  rw [← List.map_id (List.ofFn v)]
  rw [List.map_id, List.ofFn_eq_map, List.countP_map]
  rw [Finset.card_def, Finset.filter_val]
  show (Multiset.filter _ (Multiset.ofList (List.finRange n))).card = _
  rw [Multiset.filter_coe, Multiset.coe_card, List.countP_eq_length_filter]
  rfl

theorem sorted_get_isKth {n : ℕ} (v : Fin n → ℝ) {k : ℕ} (hk : 1 ≤ k) (hkn : k ≤ n) :
    Spec.IsKthSmallest v k ((sortVec v)[k - 1]'(by rw [sortVec_length]; omega)) := by
  have hlen := sortVec_length v
  set l := sortVec v with hl
  have hk1 : k - 1 < l.length := by omega
  refine ⟨(sortVec_mem v).1 (List.getElem_mem _), ?_, ?_⟩
  · rw [ncard_eq_countP v (fun x => x < l[k-1])]
    rw [← hl]
    generalize hc : l[k - 1] = c
    rw [← List.take_append_drop (k - 1) l, List.countP_append]
    subst hc
    have h2 : (l.drop (k - 1)).countP (fun x => decide (x < l[k-1])) = 0 := by
      rw [List.countP_eq_zero]
      intro a ha
      obtain ⟨j, hj, rfl⟩ := List.mem_iff_getElem.1 ha
      simp only [List.getElem_drop, decide_eq_true_eq, not_lt]
      rw [List.length_drop] at hj
      exact sortVec_mono v (by omega) (by rw [← hl]; omega)
    rw [h2]
    have := List.countP_le_length (p := fun x => decide (x < l[k-1])) (l := l.take (k - 1))
    rw [List.length_take] at this
    omega
  · rw [ncard_eq_countP v (fun x => x ≤ l[k-1])]
    rw [← hl]
    have h1 : (l.take k).countP (fun x => decide (x ≤ l[k-1])) = k := by
      rw [List.countP_eq_length.2]
      · rw [List.length_take]; omega
      · intro a ha
        obtain ⟨j, hj, rfl⟩ := List.mem_iff_getElem.1 ha
        simp only [List.getElem_take, decide_eq_true_eq]
        rw [List.length_take] at hj
        exact sortVec_mono v (by omega) (by rw [← hl]; omega)
    have h2 : (l.take k).countP (fun x => decide (x ≤ l[k-1])) ≤ l.countP (fun x => decide (x ≤ l[k-1])) :=
      (List.take_sublist k l).countP_le
    omega

theorem IsKthSmallest.unique {n : ℕ} {v : Fin n → ℝ} {k : ℕ} {s t : ℝ}
    (hs : Spec.IsKthSmallest v k s) (ht : Spec.IsKthSmallest v k t) : s = t := by
  rcases lt_trichotomy s t with h | h | h
  · exfalso
    have : {i | v i ≤ s}.ncard ≤ {i | v i < t}.ncard :=
      Set.ncard_le_ncard (fun i hi => lt_of_le_of_lt hi h) (Set.toFinite _)
    have := hs.2.2; have := ht.2.1; omega
  · exact h
  · exfalso
    have : {i | v i ≤ t}.ncard ≤ {i | v i < s}.ncard :=
      Set.ncard_le_ncard (fun i hi => lt_of_le_of_lt hi h) (Set.toFinite _)
    have := ht.2.2; have := hs.2.1; omega

theorem elemAt_ok {l : List ℝ} {i : ℕ} (h : i < l.length) : elemAt l (i : ℤ) = .ok l[i] := by
  unfold elemAt
  rw [dif_pos (by omega)]
  simp

theorem foldl_max_isLargest (x : ℝ) (xs : List ℝ) :
    (xs.foldl max x) ∈ x :: xs ∧ ∀ y ∈ x :: xs, y ≤ xs.foldl max x := by
  induction xs generalizing x with
  | nil => simp
  | cons a as ih =>
    obtain ⟨h1, h2⟩ := ih (max x a)
    simp only [List.foldl_cons]
    constructor
    · rcases List.mem_cons.1 h1 with h | h
      · rcases max_choice x a with hm | hm
        · rw [hm] at h ⊢; rw [h]; simp
        · rw [hm] at h ⊢; rw [h]; simp
      · simp [h]
    · intro y hy
      have hm := h2 (max x a) (by simp)
      rcases List.mem_cons.1 hy with rfl | hy
      · exact (le_max_left _ _).trans hm
      · rcases List.mem_cons.1 hy with rfl | hy
        · exact (le_max_right _ _).trans hm
        · exact h2 y (by simp [hy])

theorem vecMax_spec {n : ℕ} (v : Fin n → ℝ) (hn : 0 < n) : ∃ m, vecMax v = .ok m ∧ Spec.IsLargest v m := by
  unfold vecMax
  split
  · rename_i h
    have : (List.ofFn v).length = 0 := by rw [h]; rfl
    simp at this; omega
  · rename_i x xs h
    refine ⟨_, rfl, ?_⟩
    obtain ⟨h1, h2⟩ := foldl_max_isLargest x xs
    rw [← h] at h1 h2
    constructor
    · obtain ⟨i, hi⟩ := List.mem_ofFn.1 h1
      exact ⟨i, hi⟩
    · intro i
      exact h2 _ (List.mem_ofFn.2 ⟨i, rfl⟩)

theorem IsLargest.unique {n : ℕ} {v : Fin n → ℝ} {s t : ℝ} (hs : Spec.IsLargest v s) (ht : Spec.IsLargest v t) :
    s = t := by
  obtain ⟨⟨i, hi⟩, hs⟩ := hs
  obtain ⟨⟨j, hj⟩, ht⟩ := ht
  apply le_antisymm
  · rw [← hi]; exact ht i
  · rw [← hj]; exact hs j

theorem vecMax_zero (v : Fin 0 → ℝ) : vecMax v = .throw .empty := by
  simp [vecMax]

end Verif.Model

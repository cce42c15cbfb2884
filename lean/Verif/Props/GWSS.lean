import Verif.Model.GWSS
import Verif.Lemmas.Rows
import Verif.Lemmas.Summary
import Mathlib.Data.Fintype.BigOperators
import Mathlib.Algebra.BigOperators.Field
import Mathlib.Algebra.BigOperators.Intervals
import Mathlib.Tactic.FinCases
import Mathlib.Data.Fin.Tuple.Sort
import Mathlib.LinearAlgebra.Matrix.Notation

/-! # C40, C41, C42, C58, C59: local summary statistics -/

namespace Verif.Props
open Verif Verif.Model Verif.Spec

variable {n k T : ℕ}

/-- The weights of a location are usable: non-negative and not all zero. -/
def Usable (w : Fin n → ℝ) : Prop := (∀ l, 0 ≤ w l) ∧ ∃ l, 0 < w l

/-- The share of each observation in the weights of a location. -/
noncomputable def share (w : Fin n → ℝ) : Fin n → ℝ := fun l => w l / ∑ m, w m

theorem Usable.sum_pos {w : Fin n → ℝ} (h : Usable w) : 0 < ∑ l, w l := by
  obtain ⟨l, hl⟩ := h.2
  exact Finset.sum_pos' (fun m _ => h.1 m) ⟨l, Finset.mem_univ l, hl⟩

theorem Usable.isShare {w : Fin n → ℝ} (h : Usable w) : IsShare (share w) :=
  ⟨fun l => div_nonneg (h.1 l) h.sum_pos.le, by unfold share; rw [← Finset.sum_div, div_self h.sum_pos.ne']⟩

theorem Usable.share_pos {w : Fin n → ℝ} (h : Usable w) (l : Fin n) : 0 < share w l ↔ 0 < w l := by
  unfold share
  constructor
  · intro hp
    by_contra hn
    have : w l = 0 := le_antisymm (not_lt.1 hn) (h.1 l)
    rw [this, zero_div] at hp
    exact lt_irrefl _ hp
  · intro hp; exact div_pos hp h.sum_pos

theorem shares_eq {w : Fin n → ℝ} (h : Usable w) : shares w = some (share w) := if_neg h.sum_pos.ne'

theorem localMean_eq (X : Fin n → Fin k → ℝ) (p : Fin n → ℝ) (j : Fin k) : localMean X p j = wmean p fun l => X l j := rfl

theorem localVar_eq (X : Fin n → Fin k → ℝ) (p : Fin n → ℝ) (j : Fin k) : localVar X p j = wvar p fun l => X l j := by
  unfold localVar wvar
  exact Finset.sum_congr rfl fun l _ => by rw [localMean_eq, sq]

section average
variable {ord : (Fin n → ℝ) → Equiv.Perm (Fin n)} {X : Fin n → Fin k → ℝ} {quantile : Bool} {W : Fin n → Fin n → ℝ} {stop : ℕ → Bool}
  {rows : Fin n → AvgRow k}

theorem avg_row (h : gwAverageSerial ord X quantile W stop = .ok (rows, false)) (i : Fin n) :
    avgRow ord X quantile (W i) i.pos = .ok (rows i) := rowsSerial_complete h i

theorem avg_fields {w : Fin n → ℝ} (hw : Usable w) {hn : 0 < n} {r : AvgRow k} (h : avgRow ord X quantile w hn = .ok r) (j : Fin k) :
    r.mean j = some (wmean (share w) fun l => X l j) ∧ r.var j = some (wvar (share w) fun l => X l j) ∧
    r.sd j = some (Real.sqrt (wvar (share w) fun l => X l j)) := by
  unfold avgRow at h
  rw [Res.bind_eq_ok'] at h
  obtain ⟨q, -, h⟩ := h
  simp only [Res.ok.injEq] at h
  subst h
  simp only [shares_eq hw, Option.bind, localMean_eq, localVar_eq, osqrt, true_and]
  rw [if_neg (not_lt.2 (wvar_nonneg hw.isShare))]

/-- **C40, means.** The local mean at a location with usable weights is the weighted mean; it lies between the smallest and the largest
value of the observations that have weight there. -/
theorem C40_mean_between (h : gwAverageSerial ord X quantile W stop = .ok (rows, false)) (i : Fin n) (hw : Usable (W i)) (j : Fin k) :
    ∃ m, (rows i).mean j = some m ∧ m * ∑ l, W i l = ∑ l, W i l * X l j ∧ (∃ l, 0 < W i l ∧ X l j ≤ m) ∧ ∃ l, 0 < W i l ∧ m ≤ X l j := by
  refine ⟨_, (avg_fields hw (avg_row h i) j).1, ?_, ?_, ?_⟩
  · unfold wmean share
    rw [Finset.sum_mul]
    refine Finset.sum_congr rfl fun l _ => ?_
    have := hw.sum_pos.ne'
    field_simp
  · by_contra hc
    push Not at hc
    obtain ⟨l0, hl0, hmin⟩ : ∃ l0, 0 < W i l0 ∧ ∀ l, 0 < W i l → X l0 j ≤ X l j := by
      obtain ⟨l, hl⟩ := hw.2
      obtain ⟨l0, h0, hm⟩ := (Finset.univ.filter fun l => 0 < W i l).exists_min_image (fun l => X l j) ⟨l, by simp [hl]⟩
      exact ⟨l0, by simpa using h0, fun l hl => hm l (by simp [hl])⟩
    have h1 := hc l0 hl0
    have h2 : X l0 j ≤ wmean (share (W i)) fun l => X l j := le_wmean hw.isShare fun l hl => hmin l ((hw.share_pos l).1 hl)
    obtain ⟨lm, hlm, hmax⟩ : ∃ l0, 0 < W i l0 ∧ ∀ l, 0 < W i l → X l j ≤ X l0 j := by
      obtain ⟨l, hl⟩ := hw.2
      obtain ⟨l0, h0, hm⟩ := (Finset.univ.filter fun l => 0 < W i l).exists_max_image (fun l => X l j) ⟨l, by simp [hl]⟩
      exact ⟨l0, by simpa using h0, fun l hl => hm l (by simp [hl])⟩
    exact absurd h1 (not_lt.2 h2)
  · by_contra hc
    push Not at hc
    obtain ⟨lm, hlm, hmax⟩ : ∃ l0, 0 < W i l0 ∧ ∀ l, 0 < W i l → X l j ≤ X l0 j := by
      obtain ⟨l, hl⟩ := hw.2
      obtain ⟨l0, h0, hm⟩ := (Finset.univ.filter fun l => 0 < W i l).exists_max_image (fun l => X l j) ⟨l, by simp [hl]⟩
      exact ⟨l0, by simpa using h0, fun l hl => hm l (by simp [hl])⟩
    have h1 := hc lm hlm
    have h2 : wmean (share (W i)) (fun l => X l j) ≤ X lm j := wmean_le hw.isShare fun l hl => hmax l ((hw.share_pos l).1 hl)
    exact absurd h1 (not_lt.2 h2)

/-- **C40, variances.** The local variance is the weighted mean of the squared deviations from the local mean: never negative, and zero
exactly when all observations that have weight there have the same value. The standard deviation is its square root. -/
theorem C40_variance (h : gwAverageSerial ord X quantile W stop = .ok (rows, false)) (i : Fin n) (hw : Usable (W i)) (j : Fin k) :
    ∃ m v, (rows i).mean j = some m ∧ (rows i).var j = some v ∧ v * ∑ l, W i l = ∑ l, W i l * (X l j - m) ^ 2 ∧ 0 ≤ v ∧
      (v = 0 ↔ ∀ l l', 0 < W i l → 0 < W i l' → X l j = X l' j) ∧ (rows i).sd j = some (Real.sqrt v) := by
  obtain ⟨h1, h2, h3⟩ := avg_fields hw (avg_row h i) j
  refine ⟨_, _, h1, h2, ?_, wvar_nonneg hw.isShare, ?_, h3⟩
  · unfold wvar
    rw [Finset.sum_mul]
    refine Finset.sum_congr rfl fun l _ => ?_
    have := hw.sum_pos.ne'
    unfold share
    field_simp
  · rw [wvar_eq_zero hw.isShare]
    simp only [hw.share_pos]

end average

/-! ## Correlations -/

section corr
variable {ord : (Fin n → ℝ) → Equiv.Perm (Fin n)} {X R : Fin n → Fin k → ℝ} {firstOnly : Bool} {W : Fin n → Fin n → ℝ} {stop : ℕ → Bool}

theorem covwt_eq {p x y : Fin n → ℝ} (hp : IsShare p) : covwt x y p = odiv (wcov p x y) (1 - ∑ l, p l * p l) := by
  unfold covwt
  rw [if_neg (by rintro ⟨l, hl⟩; exact absurd hl (not_lt.2 (hp.1 l)))]
  congr 1
  unfold wcov
  refine Finset.sum_congr rfl fun l _ => ?_
  rw [mul_mul_mul_comm, Real.mul_self_sqrt (hp.1 l)]
  have : ∀ z : Fin n → ℝ, ∑ m, z m * p m = wmean p z := fun z => Finset.sum_congr rfl fun m _ => mul_comm _ _
  rw [this, this]

/-- Dividing the covariance by the root of the variances, all over the same denominator. -/
theorem corr_cancel {p x y : Fin n → ℝ} (hp : IsShare p) (hx : 0 < wvar p x) (hy : 0 < wvar p y) :
    ((odiv (wcov p x y) (1 - ∑ l, p l * p l)).bind fun a => (odiv (wvar p x) (1 - ∑ l, p l * p l)).bind fun b =>
      (odiv (wvar p y) (1 - ∑ l, p l * p l)).bind fun d => (osqrt (b * d)).bind fun s => odiv a s) =
    some (wcov p x y / Real.sqrt (wvar p x * wvar p y)) := by
  have hS : 0 < 1 - ∑ l, p l * p l := sub_pos.2 (sum_sq_lt_one hp hx)
  set S := 1 - ∑ l, p l * p l with hSdef
  have hpos : 0 < wvar p x / S * (wvar p y / S) := mul_pos (div_pos hx hS) (div_pos hy hS)
  have hs : Real.sqrt (wvar p x / S * (wvar p y / S)) = Real.sqrt (wvar p x * wvar p y) / S := by
    rw [div_mul_div_comm, Real.sqrt_div' _ (mul_self_nonneg S), Real.sqrt_mul_self hS.le]
  have h0 : Real.sqrt (wvar p x * wvar p y) ≠ 0 := (Real.sqrt_pos.2 (mul_pos hx hy)).ne'
  simp only [odiv, if_neg hS.ne', Option.bind, osqrt, if_neg (not_lt.2 hpos.le), hs]
  rw [if_neg (div_ne_zero h0 hS.ne')]
  congr 1
  field_simp

/-- If one of the variables does not vary, the quotient is not a number. -/
theorem corr_degenerate {p x y : Fin n → ℝ} (h0 : wvar p x = 0 ∨ wvar p y = 0) :
    ((odiv (wcov p x y) (1 - ∑ l, p l * p l)).bind fun a => (odiv (wvar p x) (1 - ∑ l, p l * p l)).bind fun b =>
      (odiv (wvar p y) (1 - ∑ l, p l * p l)).bind fun d => (osqrt (b * d)).bind fun s => odiv a s) = none := by
  by_cases hS : 1 - ∑ l, p l * p l = 0
  · simp [odiv, hS]
  · have : wvar p x / (1 - ∑ l, p l * p l) * (wvar p y / (1 - ∑ l, p l * p l)) = 0 := by
      rcases h0 with h0 | h0 <;> rw [h0] <;> simp
    simp only [odiv, if_neg hS, Option.bind, osqrt, this, lt_irrefl, if_false, Real.sqrt_zero, if_true]

/-- Filling writes the list in order. -/
theorem corrFill_spec {α β : Type*} {c : ℕ} (f : β → α) : ∀ (bs : List β) (tag : ℕ) (m : Fin c → α), tag + bs.length ≤ c →
    ∃ m', corrFill f bs tag m = .ok m' ∧ (∀ (q : ℕ) (hq : q < bs.length) (ht : tag + q < c), m' ⟨tag + q, ht⟩ = f bs[q]) ∧
      ∀ t : Fin c, t.val < tag → m' t = m t
  | [], tag, m, _ => ⟨m, rfl, by simp, fun _ _ => rfl⟩
  | b :: bs, tag, m, h => by
    simp only [List.length_cons] at h
    obtain ⟨m', h1, h2, h3⟩ := corrFill_spec f bs (tag + 1) (Function.update m ⟨tag, by omega⟩ (f b)) (by omega)
    refine ⟨m', ?_, ?_, ?_⟩
    · simp only [corrFill]; rw [dif_pos (by omega), h1]
    · intro q hq ht
      cases q with
      | zero =>
        have := h3 ⟨tag, by omega⟩ (by simp)
        simpa using this
      | succ q =>
        have := h2 q (by simpa using hq) (by omega)
        simp only [List.getElem_cons_succ]
        rw [← this]
        congr 1
        ext
        simp; omega
    · intro t ht
      rw [h3 t (by omega), Function.update_of_ne]
      intro e
      rw [e] at ht
      simp at ht

theorem mem_corrPairs {jl : Fin k × Fin k} : jl ∈ corrPairs k firstOnly ↔ jl.1 < jl.2 ∧ (firstOnly = true → jl.1.val = 0) := by
  obtain ⟨j, l⟩ := jl
  simp only [corrPairs, List.mem_flatMap, List.mem_filter, List.mem_finRange, true_and, decide_eq_true_eq, List.mem_map, Prod.mk.injEq]
  constructor
  · rintro ⟨a, ha, b, hb, rfl, rfl⟩
    refine ⟨hb, fun hf => ?_⟩
    rw [if_pos hf] at ha
    omega
  · rintro ⟨h1, h2⟩
    refine ⟨j, ?_, l, h1, rfl, rfl⟩
    split
    · rename_i hf; rw [h2 hf]; exact Nat.one_pos
    · have : j.val < l.val := h1
      omega

/-- The pairs are visited in increasing lexicographic order. -/
theorem pairwise_corrPairs : (corrPairs k firstOnly).Pairwise fun a b => a.1 < b.1 ∨ (a.1 = b.1 ∧ a.2 < b.2) := by
  unfold corrPairs
  rw [List.pairwise_flatMap]
  have hfr : (List.finRange k).Pairwise (· < ·) := List.pairwise_lt_finRange k
  constructor
  · intro j _
    rw [List.pairwise_map]
    exact (hfr.filter _).imp fun h => Or.inr ⟨rfl, h⟩
  · refine (hfr.filter _).imp fun {a b} hab => ?_
    intro x hx y hy
    simp only [List.mem_map] at hx hy
    obtain ⟨_, -, rfl⟩ := hx
    obtain ⟨_, -, rfl⟩ := hy
    exact Or.inl hab

theorem length_filter_gt (j : Fin k) : ((List.finRange k).filter fun l => decide (j < l)).length = k - 1 - j.val := by
  have h1 : ((List.finRange k).filter fun l => decide (j < l)).toFinset = Finset.Ioi j := by
    ext l; simp
  have hnd : ((List.finRange k).filter fun l => decide (j < l)).Nodup := (List.nodup_finRange k).filter _
  rw [← List.toFinset_card_of_nodup hnd, h1, Fin.card_Ioi]
  

theorem length_corrPairs (hk : 2 ≤ k) : (corrPairs k firstOnly).length = corrCols k firstOnly := by
  unfold corrPairs corrCols
  rw [List.length_flatMap]
  simp only [List.length_map, length_filter_gt]
  cases firstOnly with
  | true =>
    simp only [if_true]
    have : (List.finRange k).filter (fun j => decide (j.val < 1)) = [⟨0, by omega⟩] := by
      obtain ⟨m, rfl⟩ : ∃ m, k = m + 1 := ⟨k - 1, by omega⟩
      rw [List.finRange_succ, List.filter_cons]
      simp
    rw [this]; simp
  | false =>
    simp only [Bool.false_eq_true, if_false]
    have h1 : ((List.finRange k).filter (fun j => decide (j.val < k - 1))).map (fun j => k - 1 - j.val) = 
        ((List.range k).filter (fun j => decide (j < k - 1))).map (fun j => k - 1 - j) := by
      rw [← List.map_coe_finRange_eq_range, List.filter_map, List.map_map]
      rfl
    rw [h1]
    have h2 : (((List.range k).filter (fun j => decide (j < k - 1))).map (fun j => k - 1 - j)).sum = ∑ j ∈ Finset.range (k - 1), (k - 1 - j) := by
      have : (List.range k).filter (fun j => decide (j < k - 1)) = List.range (k - 1) := by
        obtain ⟨m, rfl⟩ : ∃ m, k = m + 1 := ⟨k - 1, by omega⟩
        rw [List.range_succ, List.filter_append]
        simp
      rw [this, ← List.sum_toFinset _ List.nodup_range, List.toFinset_range]
    rw [h2]
    have h3 : ∑ j ∈ Finset.range (k - 1), (k - 1 - j) = ∑ j ∈ Finset.range (k - 1), (j + 1) := by
      rw [← Finset.sum_range_reflect]
      refine Finset.sum_congr rfl fun j hj => ?_
      rw [Finset.mem_range] at hj
      omega
    rw [h3, Finset.sum_add_distrib, Finset.sum_const, Finset.card_range, smul_eq_mul, mul_one]
    have h4 := Finset.sum_range_id_mul_two (k - 1)
    obtain ⟨m, rfl⟩ : ∃ m, k = m + 1 := ⟨k - 1, by omega⟩
    simp only [Nat.add_sub_cancel] at h4 ⊢
    have h5 : (m + 1 + 1) * (m + 1) / 2 = ∑ i ∈ Finset.range m, i + m + (m + 1) := by
      apply Nat.div_eq_of_eq_mul_left (by norm_num)
      rcases m with _ | m
      · simp
      · simp only [Nat.add_sub_cancel] at h4
        nlinarith
    omega

/-- **C41.** With at least two variables, the output columns correspond one to one to the pairs of different variables (to the pairs
with the first variable, if only those are asked for), in increasing lexicographic order; column `c` of every location holds the
statistics of its pair. -/
theorem C41_columns (hk : 2 ≤ k) (X : Fin n → Fin k → ℝ) (firstOnly : Bool) :
    ∃ pair : Fin (corrCols k firstOnly) → Fin k × Fin k,
      (∀ c c', c < c' → (pair c).1 < (pair c').1 ∨ ((pair c).1 = (pair c').1 ∧ (pair c).2 < (pair c').2)) ∧
      Function.Injective pair ∧
      (∀ j l : Fin k, (∃ c, pair c = (j, l)) ↔ j < l ∧ (firstOnly = true → j.val = 0)) ∧
      ∀ (ord : (Fin n → ℝ) → Equiv.Perm (Fin n)) (W : Fin n → Fin n → ℝ) (stop : ℕ → Bool), (∀ q, stop q = false) →
        ∃ rows, gwCorrelationSerial ord X firstOnly W stop = .ok (rows, false) ∧
          ∀ i, Usable (W i) → ∀ c, (rows i).cols c = corrEntry X (rankX ord X) (share (W i)) (pair c) := by
  have hlen := length_corrPairs (firstOnly := firstOnly) hk
  have hord := pairwise_corrPairs (k := k) (firstOnly := firstOnly)
  have hmono : ∀ c c' : Fin (corrCols k firstOnly), c < c' →
      ((corrPairs k firstOnly)[c.val]'(by rw [hlen]; exact c.2)).1 < ((corrPairs k firstOnly)[c'.val]'(by rw [hlen]; exact c'.2)).1 ∨
      (((corrPairs k firstOnly)[c.val]'(by rw [hlen]; exact c.2)).1 = ((corrPairs k firstOnly)[c'.val]'(by rw [hlen]; exact c'.2)).1 ∧
      ((corrPairs k firstOnly)[c.val]'(by rw [hlen]; exact c.2)).2 < ((corrPairs k firstOnly)[c'.val]'(by rw [hlen]; exact c'.2)).2) := by
    intro c c' h
    exact List.pairwise_iff_getElem.1 hord c.val c'.val _ _ h
  refine ⟨fun c => (corrPairs k firstOnly)[c.val]'(by rw [hlen]; exact c.2), hmono, ?_, ?_, ?_⟩
  · intro c c' h
    by_contra hne
    rcases lt_or_gt_of_ne hne with hlt | hlt
    · have := hmono c c' hlt
      simp only at h
      rw [h] at this
      simp at this
    · have := hmono c' c hlt
      simp only at h
      rw [h] at this
      simp at this
  · intro j l
    rw [← mem_corrPairs (jl := (j, l))]
    constructor
    · rintro ⟨c, hc⟩
      rw [← hc]
      exact List.getElem_mem _
    · intro h
      obtain ⟨c, hc, e⟩ := List.getElem_of_mem h
      exact ⟨⟨c, by rw [← hlen]; exact hc⟩, e⟩
  · intro ord W stop hstop
    have hrow : ∀ i, ∃ r : CorrRow k (corrCols k firstOnly), corrRow X (rankX ord X) firstOnly (W i) = .ok r ∧ (Usable (W i) → ∀ c : Fin (corrCols k firstOnly),
        r.cols c = corrEntry X (rankX ord X) (share (W i)) ((corrPairs k firstOnly)[c.val]'(by rw [hlen]; exact c.2))) := by
      intro i
      unfold corrRow
      obtain ⟨m', h1, h2, -⟩ := corrFill_spec (c := corrCols k firstOnly) (colEntry X (rankX ord X) (shares (W i))) (corrPairs k firstOnly) 0 (fun _ => (some 0, some 0, some 0)) (by rw [hlen]; simp)
      rw [h1]
      refine ⟨_, rfl, fun hw c => ?_⟩
      have := h2 c.val (by rw [hlen]; exact c.2) (by simp)
      simp only [shares_eq hw, colEntry] at this
      simpa using this
    choose r hr1 hr2 using hrow
    refine ⟨r, ?_, hr2⟩
    unfold gwCorrelationSerial
    rw [if_pos hk, rowsSerial_ok hstop r hr1]

/-- With fewer than two variables the correlation mode reports an error. -/
theorem C41_too_few (hk : k < 2) (ord : (Fin n → ℝ) → Equiv.Perm (Fin n)) (X : Fin n → Fin k → ℝ) (W : Fin n → Fin n → ℝ)
    (stop : ℕ → Bool) : gwCorrelationSerial ord X firstOnly W stop = .throw .runtime := if_neg (by omega)

/-- **C40, correlations.** The entries for a pair of variables at a location with usable weights: if both variables vary among the
observations with weight, the correlation is the weighted covariance over the root of the weighted variances, and is between -1 and 1;
otherwise the entry is not a number. The same holds for the Spearman correlation and the ranks. -/
theorem C40_correlation (w : Fin n → ℝ) (hw : Usable w) (jl : Fin k × Fin k) :
    let p := share w
    (0 < wvar p (fun l => X l jl.1) → 0 < wvar p (fun l => X l jl.2) → ∃ r, (corrEntry X R p jl).2.1 = some r ∧
      r * Real.sqrt (wvar p (fun l => X l jl.1) * wvar p (fun l => X l jl.2)) = wcov p (fun l => X l jl.1) (fun l => X l jl.2) ∧ |r| ≤ 1) ∧
    (0 < wvar p (fun l => R l jl.1) → 0 < wvar p (fun l => R l jl.2) → ∃ r, (corrEntry X R p jl).2.2 = some r ∧
      r * Real.sqrt (wvar p (fun l => R l jl.1) * wvar p (fun l => R l jl.2)) = wcov p (fun l => R l jl.1) (fun l => R l jl.2) ∧ |r| ≤ 1) ∧
    (wvar p (fun l => X l jl.1) = 0 ∨ wvar p (fun l => X l jl.2) = 0 → (corrEntry X R p jl).2.1 = none) ∧
    (wvar p (fun l => R l jl.1) = 0 ∨ wvar p (fun l => R l jl.2) = 0 → (corrEntry X R p jl).2.2 = none) ∧
    ∀ c, (corrEntry X R p jl).1 = some c → c * (1 - ∑ l, p l * p l) = wcov p (fun l => X l jl.1) (fun l => X l jl.2) := by
  intro p
  have hp : IsShare p := hw.isShare
  have e1 : (corrEntry X R p jl).2.1 = ((odiv (wcov p (fun l => X l jl.1) (fun l => X l jl.2)) (1 - ∑ l, p l * p l)).bind fun a =>
      (odiv (wvar p (fun l => X l jl.1)) (1 - ∑ l, p l * p l)).bind fun b => (odiv (wvar p (fun l => X l jl.2)) (1 - ∑ l, p l * p l)).bind
        fun d => (osqrt (b * d)).bind fun s => odiv a s) := by
    simp only [corrEntry, covwt_eq hp, localVar_eq]
  have e2 : (corrEntry X R p jl).2.2 = ((odiv (wcov p (fun l => R l jl.1) (fun l => R l jl.2)) (1 - ∑ l, p l * p l)).bind fun a =>
      (odiv (wvar p (fun l => R l jl.1)) (1 - ∑ l, p l * p l)).bind fun b => (odiv (wvar p (fun l => R l jl.2)) (1 - ∑ l, p l * p l)).bind
        fun d => (osqrt (b * d)).bind fun s => odiv a s) := by
    simp only [corrEntry, corwt, covwt_eq hp, wcov_self]
  have main : ∀ x y : Fin n → ℝ, 0 < wvar p x → 0 < wvar p y → wcov p x y / Real.sqrt (wvar p x * wvar p y) *
      Real.sqrt (wvar p x * wvar p y) = wcov p x y := by
    intro x y hx hy
    exact div_mul_cancel₀ _ (Real.sqrt_pos.2 (mul_pos hx hy)).ne'
  refine ⟨fun hx hy => ?_, fun hx hy => ?_, fun h0 => ?_, fun h0 => ?_, ?_⟩
  · exact ⟨_, by rw [e1, corr_cancel hp hx hy], main _ _ hx hy, corr_bounds hp⟩
  · exact ⟨_, by rw [e2, corr_cancel hp hx hy], main _ _ hx hy, corr_bounds hp⟩
  · rw [e1, corr_degenerate h0]
  · rw [e2, corr_degenerate h0]
  · intro c hc
    simp only [corrEntry, covwt_eq hp, odiv] at hc
    split at hc
    · cases hc
    · rename_i hS
      simp only [Option.some.injEq] at hc
      rw [← hc, div_mul_cancel₀ _ hS]

/-- **C40, the correlation table.** In every completed run, every correlation and Spearman correlation that is a number, at any location
with usable weights, is between -1 and 1. -/
theorem C40_correlation_run (hk : 2 ≤ k) {rows : Fin n → CorrRow k (corrCols k firstOnly)} (hs : ∀ q, stop q = false)
    (h : gwCorrelationSerial ord X firstOnly W stop = .ok (rows, false)) (i : Fin n) (hw : Usable (W i)) (c : Fin (corrCols k firstOnly)) :
    (∀ r, ((rows i).cols c).2.1 = some r → |r| ≤ 1) ∧ (∀ r, ((rows i).cols c).2.2 = some r → |r| ≤ 1) := by
  obtain ⟨pair, -, -, -, h'⟩ := C41_columns hk X firstOnly
  obtain ⟨rows', hr, hc⟩ := h' ord W stop hs
  rw [h] at hr
  have : rows = rows' := (Prod.mk.inj (Res.ok.inj hr)).1
  subst this
  rw [hc i hw c]
  obtain ⟨h1, h2, h3, h4, -⟩ := C40_correlation (X := X) (R := rankX ord X) (W i) hw (pair c)
  have pos : ∀ x : Fin n → ℝ, wvar (share (W i)) x ≠ 0 → 0 < wvar (share (W i)) x := fun x hx =>
    lt_of_le_of_ne (wvar_nonneg hw.isShare) (Ne.symm hx)
  constructor
  · intro r hr
    by_cases h0 : wvar (share (W i)) (fun l => X l (pair c).1) = 0 ∨ wvar (share (W i)) (fun l => X l (pair c).2) = 0
    · rw [h3 h0] at hr; cases hr
    · rw [not_or] at h0
      obtain ⟨r', e, -, hle⟩ := h1 (pos _ h0.1) (pos _ h0.2)
      rw [e] at hr
      rw [← Option.some.inj hr]; exact hle
  · intro r hr
    by_cases h0 : wvar (share (W i)) (fun l => rankX ord X l (pair c).1) = 0 ∨ wvar (share (W i)) (fun l => rankX ord X l (pair c).2) = 0
    · rw [h4 h0] at hr; cases hr
    · rw [not_or] at h0
      obtain ⟨r', e, -, hle⟩ := h2 (pos _ h0.1) (pos _ h0.2)
      rw [e] at hr
      rw [← Option.some.inj hr]; exact hle

end corr
/-! ## Quantiles -/

section quantile
variable {σ : Equiv.Perm (Fin n)} {x p : Fin n → ℝ}

theorem cum_eq (σ : Equiv.Perm (Fin n)) (p : Fin n → ℝ) (i : Fin n) : cumShare σ p i = ∑ l with σ.symm l ≤ i, p l := by
  unfold cumShare
  refine Finset.sum_equiv σ ?_ ?_
  · intro j; simp
  · intro j _; rfl

theorem cum_mono (hp : IsShare p) {i i' : Fin n} (h : i ≤ i') : cumShare σ p i ≤ cumShare σ p i' := by
  rw [cum_eq, cum_eq]
  refine Finset.sum_le_sum_of_subset_of_nonneg ?_ fun l _ _ => hp.1 l
  intro l hl
  simp only [Finset.mem_filter, Finset.mem_univ, true_and] at hl ⊢
  exact hl.trans h

theorem cum_last (hp : IsShare p) (hn : 0 < n) : cumShare σ p ⟨n - 1, by omega⟩ = 1 := by
  rw [cum_eq, ← hp.2]
  congr 1
  ext l
  simp only [Finset.mem_filter, Finset.mem_univ, true_and, iff_true, Fin.le_def]
  omega

/-- The first position at which the cumulated share exceeds the level. -/
theorem first_above (hp : IsShare p) (hn : 0 < n) {a : ℝ} (ha : a < 1) : ∃ i : Fin n,
    (List.finRange n).find? (fun i => decide (a < cumShare σ p i)) = some i ∧ a < cumShare σ p i ∧ ∀ j < i, cumShare σ p j ≤ a := by
  cases h : (List.finRange n).find? (fun i => decide (a < cumShare σ p i)) with
  | none =>
    rw [List.find?_eq_none] at h
    have := h ⟨n - 1, by omega⟩ (List.mem_finRange _)
    rw [cum_last hp hn] at this
    simp at this
    linarith
  | some i =>
    refine ⟨i, rfl, ?_⟩
    rw [List.find?_eq_some_iff_getElem] at h
    obtain ⟨h1, q, hq, hqi, h2⟩ := h
    refine ⟨by simpa using h1, fun j hj => ?_⟩
    have hqv : q = i.val := by rw [← hqi]; simp
    have := h2 j.val (by rw [hqv]; exact hj)
    simpa using this

theorem findq_spec (hσ : Sorts x σ) (hp : IsShare p) (hn : 0 < n) (t : Fin 3) :
    (findq σ x (some p) hn t = .ub ∧ (t.val + 1 : ℝ) / 4 < p (σ ⟨0, hn⟩)) ∨
    ∃ i : Fin n, ∃ hi : 0 < i.val, (t.val + 1 : ℝ) / 4 < cumShare σ p i ∧ (∀ j < i, cumShare σ p j ≤ (t.val + 1 : ℝ) / 4) ∧
      findq σ x (some p) hn t = .ok (x (σ ⟨i.val - 1, by omega⟩)) ∧ p (σ ⟨0, hn⟩) ≤ (t.val + 1 : ℝ) / 4 ∧
      IsLowerQuantile p x ((t.val + 1 : ℝ) / 4) (x (σ ⟨i.val - 1, by omega⟩)) := by
  have ha : (1 / 4 : ℝ) * (t.val + 1) < 1 := by
    have : (t.val : ℝ) ≤ 2 := by exact_mod_cast Nat.lt_succ_iff.1 t.2
    linarith
  have hat : (t.val + 1 : ℝ) / 4 = (1 / 4 : ℝ) * (t.val + 1) := by ring
  rw [hat]
  obtain ⟨i, h1, h2, h3⟩ := first_above (σ := σ) hp hn ha
  have hc0 : cumShare σ p ⟨0, hn⟩ = p (σ ⟨0, hn⟩) := by
    unfold cumShare
    rw [Finset.sum_eq_single_of_mem ⟨0, hn⟩ (by simp)]
    intro j hj hne
    simp only [Finset.mem_filter, Finset.mem_univ, true_and, Fin.le_def, Nat.le_zero] at hj
    exact absurd (Fin.ext hj) hne
  by_cases hi : i.val = 0
  · left
    have : i = ⟨0, hn⟩ := Fin.ext hi
    rw [this, hc0] at h2
    exact ⟨by simp only [findq, h1]; rw [if_pos hi], h2⟩
  · right
    have hi0 : 0 < i.val := Nat.pos_of_ne_zero hi
    refine ⟨i, hi0, h2, h3, by simp only [findq, h1]; rw [if_neg hi], ?_, ⟨_, rfl⟩, ?_, ?_, ?_⟩
    · rw [← hc0]
      exact h3 ⟨0, hn⟩ hi0
    · refine le_trans ?_ (h3 ⟨i.val - 1, by omega⟩ (by rw [Fin.lt_def]; simp; omega))
      rw [cum_eq]
      refine Finset.sum_le_sum_of_subset_of_nonneg ?_ fun l _ _ => hp.1 l
      intro l hl
      simp only [Finset.mem_filter, Finset.mem_univ, true_and] at hl ⊢
      by_contra hc
      rw [not_le] at hc
      have := hσ hc.le
      simp only [Function.comp, Equiv.apply_symm_apply] at this
      linarith
    · intro l hl
      refine lt_of_lt_of_le h2 ?_
      rw [cum_eq]
      refine Finset.sum_le_sum_of_subset_of_nonneg ?_ fun l _ _ => hp.1 l
      intro m hm
      simp only [Finset.mem_filter, Finset.mem_univ, true_and] at hm ⊢
      have hil : i ≤ σ.symm l := by
        by_contra hc
        rw [not_le] at hc
        have hle : σ.symm l ≤ ⟨i.val - 1, by omega⟩ := by
          rw [Fin.le_def]; rw [Fin.lt_def] at hc; simp; omega
        have := hσ hle
        simp only [Function.comp, Equiv.apply_symm_apply] at this
        linarith
      have := hσ (hm.trans hil)
      simpa only [Function.comp, Equiv.apply_symm_apply] using this
    · by_cases htie : x (σ i) = x (σ ⟨i.val - 1, by omega⟩)
      · right
        refine ⟨σ i, σ ⟨i.val - 1, by omega⟩, ?_, htie, rfl⟩
        intro e
        have := congrArg Fin.val (σ.injective e)
        simp only at this
        omega
      · left
        refine le_trans ?_ (h3 ⟨i.val - 1, by omega⟩ (by rw [Fin.lt_def]; simp; omega))
        rw [cum_eq]
        refine Finset.sum_le_sum_of_subset_of_nonneg ?_ fun l _ _ => hp.1 l
        intro l hl
        simp only [Finset.mem_filter, Finset.mem_univ, true_and] at hl ⊢
        by_contra hc
        rw [not_le] at hc
        have hil : i ≤ σ.symm l := by
          rw [Fin.le_def]; rw [Fin.lt_def] at hc; simp only at hc; omega
        have h4 := hσ hil
        have h5 := hσ (show (⟨i.val - 1, by omega⟩ : Fin n) ≤ i by rw [Fin.le_def]; simp)
        simp only [Function.comp, Equiv.apply_symm_apply] at h4 h5
        exact htie (le_antisymm (h4.trans hl) h5)

/-- The quartiles at one location for one variable. -/
theorem quartile_row (hσ : Sorts x σ) (hp : IsShare p) (hn : 0 < n) (q : Fin 3 → ℝ)
    (h : ∀ t, findq σ x (some p) hn t = .ok (q t)) : (∀ t : Fin 3, IsLowerQuantile p x ((t.val + 1 : ℝ) / 4) (q t)) ∧ q 0 ≤ q 1 ∧ q 1 ≤ q 2 := by
  have key : ∀ t : Fin 3, ∃ i : Fin n, ∃ hi : 0 < i.val, (t.val + 1 : ℝ) / 4 < cumShare σ p i ∧
      (∀ j < i, cumShare σ p j ≤ (t.val + 1 : ℝ) / 4) ∧ q t = x (σ ⟨i.val - 1, by omega⟩) ∧ IsLowerQuantile p x ((t.val + 1 : ℝ) / 4) (q t) := by
    intro t
    rcases findq_spec hσ hp hn t with ⟨h1, -⟩ | ⟨i, hi, h1, h2, h3, -, h4⟩
    · rw [h t] at h1; cases h1
    · rw [h t] at h3
      have := Res.ok.inj h3
      exact ⟨i, hi, h1, h2, this, by rw [this]; exact h4⟩
  have mono : ∀ t t' : Fin 3, t ≤ t' → q t ≤ q t' := by
    intro t t' htt
    obtain ⟨i, hi, h1, h2, h3, -⟩ := key t
    obtain ⟨i', hi', h1', h2', h3', -⟩ := key t'
    have hii : i ≤ i' := by
      by_contra hc
      rw [not_le] at hc
      have := h2 i' hc
      have htt' : (t.val : ℝ) ≤ t'.val := by exact_mod_cast htt
      linarith
    rw [h3, h3']
    apply hσ
    rw [Fin.le_def] at hii ⊢
    simp only
    omega
  exact ⟨fun t => (key t).choose_spec.choose_spec.2.2.2, mono 0 1 (by decide), mono 1 2 (by decide)⟩

end quantile

section quantileRun
variable {ord : (Fin n → ℝ) → Equiv.Perm (Fin n)} {X : Fin n → Fin k → ℝ} {W : Fin n → Fin n → ℝ} {stop : ℕ → Bool}
  {rows : Fin n → AvgRow k}

/-- **C42 (partial).** Whatever way the library sorts, if the run succeeds then at every location with usable weights the local quartiles
are weighted quantiles of the variable (in particular data values), the median is the second one, the interquartile range is the
difference of the third and the first and not negative, and the quantile imbalance, where defined, is between -1 and 1.
Missing: the run can be undefined; exactly when is `C42_defined_iff`. -/
theorem C42_quartiles_partial (hord : ∀ x, Sorts x (ord x)) (h : gwAverageSerial ord X true W stop = .ok (rows, false)) (i : Fin n)
    (hw : Usable (W i)) (j : Fin k) : ∃ q : Fin 3 → ℝ,
    (∀ t : Fin 3, IsLowerQuantile (share (W i)) (fun l => X l j) ((t.val + 1 : ℝ) / 4) (q t)) ∧
    (rows i).median j = some (q 1) ∧ (rows i).iqr j = some (q 2 - q 0) ∧ 0 ≤ q 2 - q 0 ∧
    (q 0 = q 2 → (rows i).qi j = none) ∧
    (q 0 ≠ q 2 → ∃ z, (rows i).qi j = some z ∧ z * (q 2 - q 0) = 2 * q 1 - q 2 - q 0 ∧ |z| ≤ 1) := by
  have hr := avg_row h i
  unfold avgRow at hr
  rw [Res.bind_eq_ok'] at hr
  obtain ⟨q, hq, hr⟩ := hr
  simp only [Res.ok.injEq] at hr
  unfold quartiles at hq
  rw [if_pos rfl, Res.tabulate_eq_ok, shares_eq hw] at hq
  have hqj := Res.tabulate_eq_ok.1 (hq j)
  obtain ⟨h1, h2, h3⟩ := quartile_row (hord _) hw.isShare i.pos (q j) hqj
  rw [← hr]
  refine ⟨q j, h1, rfl, rfl, by linarith, ?_, ?_⟩
  · intro e
    simp [odiv, e]
  · intro hne
    have hpos : 0 < q j 2 - q j 0 := lt_of_le_of_ne (by linarith) fun e => hne (by linarith)
    refine ⟨(2 * q j 1 - q j 2 - q j 0) / (q j 2 - q j 0), ?_, div_mul_cancel₀ _ hpos.ne', ?_⟩
    · simp [odiv, hpos.ne']
    · rw [abs_div, abs_of_pos hpos]
      refine div_le_one_of_le₀ ?_ hpos.le
      rw [abs_le]; constructor <;> linarith

theorem serialFor_ub {ι ρ τ : Type*} {g : ι → Res ρ} {upd : ι → ρ → τ → τ} {stop : ℕ → Bool} (hg : ∀ i, (∃ r, g i = .ok r) ∨ g i = .ub) :
    ∀ (is : List ι) (p : ℕ) (s : τ), (∀ q, p ≤ q → stop q = false) → (∃ i ∈ is, g i = .ub) → serialFor g upd stop is p s = .ub
  | [], p, s, _, h => by simp at h
  | i :: is, p, s, hs, h => by
    simp only [serialFor, hs p le_rfl, Bool.false_eq_true, if_false]
    rcases hg i with ⟨r, hr⟩ | hr
    · rw [hr]
      simp only [Res.bind]
      apply serialFor_ub hg is _ _ (fun q hq => hs q (by omega))
      obtain ⟨j, hj, hje⟩ := h
      rcases List.mem_cons.1 hj with rfl | hj
      · rw [hr] at hje; cases hje
      · exact ⟨j, hj, hje⟩
    · rw [hr]; rfl

theorem tabulate_ub {α : Type} : ∀ {m : ℕ} {f : Fin m → Res α}, (∀ i, (∃ r, f i = .ok r) ∨ f i = .ub) →
    (∃ v, Res.tabulate m f = .ok v) ∨ Res.tabulate m f = .ub
  | 0, f, _ => Or.inl ⟨_, rfl⟩
  | m + 1, f, h => by
    simp only [Res.tabulate]
    rcases h 0 with ⟨r, hr⟩ | hr
    · rw [hr]
      simp only [Res.bind]
      rcases tabulate_ub (f := fun i => f i.succ) (fun i => h i.succ) with ⟨v, hv⟩ | hv
      · rw [hv]; exact Or.inl ⟨_, rfl⟩
      · rw [hv]; exact Or.inr rfl
    · rw [hr]; exact Or.inr rfl

theorem avgRow_ok_iff (hord : ∀ x, Sorts x (ord x)) {w : Fin n → ℝ} (hw : Usable w) (hn : 0 < n) :
    ((∃ r, avgRow ord X true w hn = .ok r) ↔ ∀ j : Fin k, share w (ord (fun l => X l j) ⟨0, hn⟩) ≤ 1 / 4) ∧
    ((∃ r, avgRow ord X true w hn = .ok r) ∨ avgRow ord X true w hn = .ub) := by
  have hfq : ∀ (j : Fin k) (t : Fin 3), (∃ v, findq (ord fun l => X l j) (fun l => X l j) (some (share w)) hn t = .ok v) ∨
      findq (ord fun l => X l j) (fun l => X l j) (some (share w)) hn t = .ub := by
    intro j t
    rcases findq_spec (hord fun l => X l j) hw.isShare hn t with ⟨h1, -⟩ | ⟨i, hi, -, -, h3, -, -⟩
    · exact Or.inr h1
    · exact Or.inl ⟨_, h3⟩
  constructor
  · constructor
    · rintro ⟨r, hr⟩ j
      unfold avgRow at hr
      rw [Res.bind_eq_ok'] at hr
      obtain ⟨q, hq, -⟩ := hr
      unfold quartiles at hq
      rw [if_pos rfl, Res.tabulate_eq_ok, shares_eq hw] at hq
      have hqj := Res.tabulate_eq_ok.1 (hq j) 0
      rcases findq_spec (hord fun l => X l j) hw.isShare hn 0 with ⟨h1, -⟩ | ⟨i, hi, -, -, h3, h4, -⟩
      · rw [hqj] at h1; cases h1
      · simpa using h4
    · intro hle
      have : ∀ j : Fin k, ∃ v : Fin 3 → ℝ, Res.tabulate 3 (fun t => findq (ord fun l => X l j) (fun l => X l j) (shares w) hn t) = .ok v := by
        intro j
        have : ∀ t, ∃ v, findq (ord fun l => X l j) (fun l => X l j) (shares w) hn t = .ok v := by
          intro t
          rw [shares_eq hw]
          rcases findq_spec (hord fun l => X l j) hw.isShare hn t with ⟨-, h1⟩ | ⟨i, hi, -, -, h3, -, -⟩
          · have h2 := hle j
            have : (0 : ℝ) ≤ t.val := Nat.cast_nonneg _
            exfalso; linarith
          · exact ⟨_, h3⟩
        choose v hv using this
        exact ⟨v, Res.tabulate_eq_ok.2 hv⟩
      choose v hv using this
      unfold avgRow quartiles
      rw [if_pos rfl, Res.tabulate_eq_ok.2 hv]
      exact ⟨_, rfl⟩
  · unfold avgRow quartiles
    rw [if_pos rfl]
    have : (∃ v, (Res.tabulate k fun j => Res.tabulate 3 fun q => findq (ord fun l => X l j) (fun l => X l j) (shares w) hn q) = .ok v) ∨
        (Res.tabulate k fun j => Res.tabulate 3 fun q => findq (ord fun l => X l j) (fun l => X l j) (shares w) hn q) = .ub := by
      rw [shares_eq hw]
      exact tabulate_ub fun j => tabulate_ub fun t => hfq j t
    rcases this with ⟨v, hv⟩ | hv
    · rw [hv]; exact Or.inl ⟨_, rfl⟩
    · rw [hv]; exact Or.inr rfl

/-- **C42, exactly when it works.** With usable weights everywhere, an undisturbed run with quantiles succeeds iff at every location and
for every variable the observation sorted first has at most a quarter of the total weight; otherwise it reads outside a vector. -/
theorem C42_defined_iff (hord : ∀ x, Sorts x (ord x)) (hW : ∀ i, Usable (W i)) (hs : ∀ q, stop q = false) :
    ((∃ rows, gwAverageSerial ord X true W stop = .ok (rows, false)) ↔
      ∀ (i : Fin n) (j : Fin k), W i (ord (fun l => X l j) ⟨0, i.pos⟩) ≤ (∑ l, W i l) / 4) ∧
    ((∃ rows, gwAverageSerial ord X true W stop = .ok (rows, false)) ∨ gwAverageSerial ord X true W stop = .ub) := by
  have hshare : ∀ i l, share (W i) l ≤ 1 / 4 ↔ W i l ≤ (∑ l, W i l) / 4 := by
    intro i l
    unfold share
    rw [div_le_iff₀ (hW i).sum_pos]
    constructor <;> intro h <;> linarith
  constructor
  · constructor
    · rintro ⟨rows, h⟩ i j
      rw [← hshare]
      exact ((avgRow_ok_iff hord (hW i) i.pos).1.1 ⟨_, avg_row h i⟩) j
    · intro h
      have : ∀ i, ∃ r, avgRow ord X true (W i) i.pos = .ok r := fun i =>
        (avgRow_ok_iff hord (hW i) i.pos).1.2 fun j => (hshare _ _).2 (h i j)
      choose r hr using this
      exact ⟨r, rowsSerial_ok hs r hr _⟩
  · by_cases hall : ∀ i, ∃ r, avgRow ord X true (W i) i.pos = .ok r
    · choose r hr using hall
      exact Or.inl ⟨r, rowsSerial_ok hs r hr _⟩
    · push Not at hall
      obtain ⟨i, hi⟩ := hall
      right
      refine serialFor_ub (fun i => (avgRow_ok_iff hord (hW i) i.pos).2) _ _ _ (fun q _ => hs q) ⟨i, List.mem_finRange i, ?_⟩
      exact (avgRow_ok_iff hord (hW i) i.pos).2.resolve_left (fun ⟨r, hr⟩ => hi r hr)

/-- **C42 (refuted as stated).** Two observations of different value, equally weighted: local quantiles are undefined behaviour. -/
theorem C42_two_points_undefined {ord' : (Fin 2 → ℝ) → Equiv.Perm (Fin 2)} (hord : ∀ x : Fin 2 → ℝ, Sorts x (ord' x)) :
    gwAverageSerial ord' (fun (l : Fin 2) (_ : Fin 1) => (l.val : ℝ)) true (fun _ _ => 1) (fun _ => false) = .ub := by
  have hW : ∀ i : Fin 2, Usable ((fun _ _ => 1 : Fin 2 → Fin 2 → ℝ) i) := fun i => ⟨fun l => by norm_num, ⟨0, by norm_num⟩⟩
  have := C42_defined_iff (X := fun (l : Fin 2) (_ : Fin 1) => (l.val : ℝ)) (W := fun _ _ => 1) (stop := fun _ => false) hord hW (fun _ => rfl)
  rcases this.2 with h | h
  · have := this.1.1 h 0 0
    norm_num at this
  · exact h

end quantileRun

/-! ## Ranks -/

theorem rankOf_eq {ord : (Fin n → ℝ) → Equiv.Perm (Fin n)} (hord : ∀ x, Sorts x (ord x)) (x : Fin n → ℝ) (l : Fin n) :
    rankOf ord x l = (((ord x).symm l : Fin n) : ℝ) + 1 := by
  unfold rankOf
  have h := hord fun m => ((ord x m : Fin n) : ℝ)
  have : (ord fun m => ((ord x m : Fin n) : ℝ)).trans (ord x) = 1 := by
    apply perm_of_monotone
    intro a b hab
    have := h hab
    simp only [Function.comp, Nat.cast_le] at this
    exact this
  have h2 : ord x ((ord fun m => ((ord x m : Fin n) : ℝ)) l) = l := by
    have := congrArg (fun e : Equiv.Perm (Fin n) => e l) this
    simpa using this
  rw [show (ord fun m => ((ord x m : Fin n) : ℝ)) l = (ord x).symm l by rw [Equiv.eq_symm_apply]; exact h2]

/-- **C58.** The ranks used for Spearman correlations are the numbers 1 to n, each given to one observation, and a smaller value gets a
smaller rank. -/
theorem C58_ranks {ord : (Fin n → ℝ) → Equiv.Perm (Fin n)} (hord : ∀ x, Sorts x (ord x)) (X : Fin n → Fin k → ℝ) (j : Fin k) :
    (∀ l, ∃ r : ℕ, 1 ≤ r ∧ r ≤ n ∧ rankX ord X l j = r) ∧ (∀ r : ℕ, 1 ≤ r → r ≤ n → ∃ l, rankX ord X l j = r) ∧
    (∀ l m, X l j < X m j → rankX ord X l j < rankX ord X m j) := by
  refine ⟨fun l => ?_, fun r h1 h2 => ?_, fun l m hlm => ?_⟩
  · refine ⟨((ord fun m => X m j).symm l).val + 1, by omega, by omega, ?_⟩
    unfold rankX
    rw [rankOf_eq hord]; push_cast; ring
  · refine ⟨(ord fun m => X m j) ⟨r - 1, by omega⟩, ?_⟩
    unfold rankX
    rw [rankOf_eq hord, Equiv.symm_apply_apply]
    simp only
    rw [Nat.cast_sub h1]; ring
  · unfold rankX
    rw [rankOf_eq hord, rankOf_eq hord]
    have : (ord fun m => X m j).symm l < (ord fun m => X m j).symm m := by
      by_contra hc
      rw [not_lt] at hc
      have := hord (fun m => X m j) hc
      simp only [Function.comp, Equiv.apply_symm_apply] at this
      linarith
    have : (((ord fun m => X m j).symm l).val : ℝ) < ((ord fun m => X m j).symm m).val := by exact_mod_cast this
    linarith

/-- **C58 (ties).** Equal values get different ranks (no averaging), so the Spearman correlation of tied data depends on the order in
which the library happens to sort equal values. -/
theorem C58_ties_differ {ord : (Fin n → ℝ) → Equiv.Perm (Fin n)} (hord : ∀ x, Sorts x (ord x)) (X : Fin n → Fin k → ℝ) (j : Fin k)
    (l m : Fin n) (hne : l ≠ m) : rankX ord X l j ≠ rankX ord X m j := by
  unfold rankX
  rw [rankOf_eq hord, rankOf_eq hord]
  intro e
  have : ((ord fun m => X m j).symm l).val = ((ord fun m => X m j).symm m).val := by
    have : ((((ord fun m => X m j).symm l).val : ℕ) : ℝ) = (((ord fun m => X m j).symm m).val : ℕ) := by linarith
    exact_mod_cast this
  exact hne ((ord fun m => X m j).symm.injective (Fin.ext this))

/-! ## Threads and stop requests -/

/-- **C59, average mode.** An undisturbed parallel run gives the same table as a serial one, for every schedule of the threads; if the
serial run is undefined so is the parallel one. -/
theorem C59_average_parallel (ord : (Fin n → ℝ) → Equiv.Perm (Fin n)) (X : Fin n → Fin k → ℝ) (quantile : Bool) (W : Fin n → Fin n → ℝ)
    {stop : ℕ → Bool} (hs : ∀ q, stop q = false) {evs : List (OmpEv (Fin n) (Fin T))} (hsch : Schedule (List.finRange n) evs)
    (rows : Fin n → AvgRow k) : gwAverageOmp ord X quantile W stop evs = .ok (rows, false) ↔
      gwAverageSerial ord X quantile W stop = .ok (rows, false) := by
  constructor
  · intro h
    by_cases hall : ∀ i, ∃ r, avgRow ord X quantile (W i) i.pos = .ok r
    · choose r hr using hall
      obtain ⟨h1, h2, h3⟩ := rowsOmp_ok hs r hr (fun _ => AvgRow.zero) hsch
      simp only [gwAverageOmp, h1, h2, h3, if_true, Res.ok.injEq, Prod.mk.injEq, and_true] at h
      subst h
      exact rowsSerial_ok hs r hr _
    · push Not at hall
      obtain ⟨i, hi⟩ := hall
      have := omp_fail (g := fun i => avgRow ord X quantile (W i) i.pos) (upd := fun (_ : Fin T) i r (a : Fin n → AvgRow k) => Function.update a i r) hs (fun _ => AvgRow.zero)
        (List.nodup_finRange n) hsch i (List.mem_finRange i) hi
      simp only [gwAverageOmp, this] at h
      simp at h
  · intro h
    have hr := avg_row h
    obtain ⟨h1, h2, h3⟩ := rowsOmp_ok hs rows hr (fun _ => AvgRow.zero) hsch
    simp only [gwAverageOmp, h1, h2, h3, if_true]

/-- **C59, correlation mode.** -/
theorem C59_correlation_parallel (hk : 2 ≤ k) (ord : (Fin n → ℝ) → Equiv.Perm (Fin n)) (X : Fin n → Fin k → ℝ) (firstOnly : Bool)
    (W : Fin n → Fin n → ℝ) {stop : ℕ → Bool} (hs : ∀ q, stop q = false) {evs : List (OmpEv (Fin n) (Fin T))}
    (hsch : Schedule (List.finRange n) evs) : ∃ rows, gwCorrelationOmp ord X firstOnly W stop evs = .ok (rows, false) ∧
      gwCorrelationSerial ord X firstOnly W stop = .ok (rows, false) := by
  obtain ⟨pair, -, -, -, h⟩ := C41_columns (n := n) hk X firstOnly
  obtain ⟨rows, hr, -⟩ := h ord W stop hs
  refine ⟨rows, ?_, hr⟩
  unfold gwCorrelationSerial at hr
  rw [if_pos hk] at hr
  obtain ⟨h1, h2, h3⟩ := rowsOmp_ok hs rows (rowsSerial_complete hr) (fun _ => CorrRow.zero) hsch
  simp only [gwCorrelationOmp, if_pos hk, h1, h2, h3, if_true]

/-- **C59, stop requests.** If a serial run is stopped, the rows before some location are exactly those of an undisturbed run and all
later rows are zero. -/
theorem C59_stopped_prefix (ord : (Fin n → ℝ) → Equiv.Perm (Fin n)) (X : Fin n → Fin k → ℝ) (quantile : Bool) (W : Fin n → Fin n → ℝ)
    (stop : ℕ → Bool) (rows full : Fin n → AvgRow k) (b : Bool) (h : gwAverageSerial ord X quantile W stop = .ok (rows, b))
    (hfull : gwAverageSerial ord X quantile W (fun _ => false) = .ok (full, false)) :
    ∃ q ≤ n, (b = false → q = n) ∧ (b = true → stop q = true) ∧ (∀ i : Fin n, i.val < q → rows i = full i) ∧
      ∀ i : Fin n, q ≤ i.val → rows i = AvgRow.zero := by
  obtain ⟨q, h1, h2, h3, h4, h5⟩ := rowsSerial_stopped h
  refine ⟨q, h1, h2, h3, fun i hi => ?_, h5⟩
  have e1 := h4 i hi
  rw [avg_row hfull i] at e1
  exact (Res.ok.inj e1).symm

/-! ## The hypotheses are met -/

/-- **C40, shape.** Skewness is the third central moment over the cubed standard deviation, the local coefficient of variation is the
standard deviation over the mean; they are not numbers exactly if the divisor is zero. -/
theorem C40_shape {ord : (Fin n → ℝ) → Equiv.Perm (Fin n)} {X : Fin n → Fin k → ℝ} {quantile : Bool} {W : Fin n → Fin n → ℝ}
    {stop : ℕ → Bool} {rows : Fin n → AvgRow k} (h : gwAverageSerial ord X quantile W stop = .ok (rows, false)) (i : Fin n)
    (hw : Usable (W i)) (j : Fin k) :
    let p := share (W i)
    let x := fun l => X l j
    (0 < wvar p x → (rows i).skew j = some (wthird p x / Real.sqrt (wvar p x) ^ 3)) ∧ (wvar p x = 0 → (rows i).skew j = none) ∧
    (wmean p x ≠ 0 → lcv (rows i) j = some (Real.sqrt (wvar p x) / wmean p x)) ∧ (wmean p x = 0 → lcv (rows i) j = none) := by
  intro p x
  obtain ⟨h1, -, h3⟩ := avg_fields hw (avg_row h i) j
  have h4 : (rows i).skew j = odiv (wthird p x) (wvar p x * Real.sqrt (wvar p x)) := by
    have h := avg_row h i
    unfold avgRow at h
    rw [Res.bind_eq_ok'] at h
    obtain ⟨q, -, h⟩ := h
    have h := (Res.ok.inj h).symm
    rw [h]
    simp only [shares_eq hw, Option.bind, localVar_eq, osqrt]
    rw [if_neg (not_lt.2 (wvar_nonneg hw.isShare))]
    simp only
    congr 1
    unfold localThird wthird
    exact Finset.sum_congr rfl fun l _ => by rw [localMean_eq]; ring
  refine ⟨fun hv => ?_, fun hv => ?_, fun hm => ?_, fun hm => ?_⟩
  · have hs : 0 < Real.sqrt (wvar p x) := Real.sqrt_pos.2 hv
    rw [h4, odiv, if_neg (mul_pos hv hs).ne']
    congr 2
    rw [pow_succ, Real.sq_sqrt hv.le]
  · rw [h4, odiv, if_pos (by rw [hv, zero_mul])]
  · simp only [lcv, h1, h3, Option.bind, odiv]
    rw [if_neg hm]
  · simp only [lcv, h1, h3, Option.bind, odiv]
    rw [if_pos hm]

/-- **C40, the whole correlation table.** With at least two variables every undisturbed run succeeds. The columns are the pairs of
variables in lexicographic order; at every location with usable weights the entries for a pair are its weighted covariance (corrected by
`1 - Σp²`), its weighted correlation and the weighted correlation of the ranks, not numbers exactly where these are undefined; means and
variances are the weighted ones. -/
theorem C40_correlation_table (hk : 2 ≤ k) {ord : (Fin n → ℝ) → Equiv.Perm (Fin n)} (hord : ∀ x, Sorts x (ord x))
    (X : Fin n → Fin k → ℝ) (firstOnly : Bool) (W : Fin n → Fin n → ℝ) {stop : ℕ → Bool} (hs : ∀ q, stop q = false) :
    ∃ (rows : Fin n → CorrRow k (corrCols k firstOnly)) (pair : Fin (corrCols k firstOnly) → Fin k × Fin k) (R : Fin k → Fin n → ℝ),
      gwCorrelationSerial ord X firstOnly W stop = .ok (rows, false) ∧
      (∀ c c', c < c' → (pair c).1 < (pair c').1 ∨ ((pair c).1 = (pair c').1 ∧ (pair c).2 < (pair c').2)) ∧
      (∀ j l : Fin k, (∃ c, pair c = (j, l)) ↔ j < l ∧ (firstOnly = true → j.val = 0)) ∧
      (∀ j, IsRanking (fun l => X l j) (R j)) ∧
      ∀ i, Usable (W i) →
        (∀ j, (rows i).mean j = some (wmean (share (W i)) fun l => X l j) ∧ (rows i).var j = some (wvar (share (W i)) fun l => X l j)) ∧
        ∀ c,
          (∑ l, share (W i) l ^ 2 ≠ 1 → ((rows i).cols c).1 =
            some (wcov (share (W i)) (fun l => X l (pair c).1) (fun l => X l (pair c).2) / (1 - ∑ l, share (W i) l ^ 2))) ∧
          (∑ l, share (W i) l ^ 2 = 1 → ((rows i).cols c).1 = none) ∧
          ((rows i).cols c).2.1 = wcor (share (W i)) (fun l => X l (pair c).1) (fun l => X l (pair c).2) ∧
          ((rows i).cols c).2.2 = wcor (share (W i)) (R (pair c).1) (R (pair c).2) := by
  obtain ⟨pair, h1, -, h2, h3⟩ := C41_columns hk X firstOnly
  obtain ⟨rows, hr, hc⟩ := h3 ord W stop hs
  refine ⟨rows, pair, fun j l => rankX ord X l j, hr, h1, h2, fun j => C58_ranks hord X j, fun i hw => ⟨fun j => ?_, fun c => ?_⟩⟩
  · have hrow : corrRow X (rankX ord X) firstOnly (W i) = .ok (rows i) := by
      unfold gwCorrelationSerial at hr
      rw [if_pos hk] at hr
      exact rowsSerial_complete hr i
    unfold corrRow at hrow
    rw [Res.bind_eq_ok'] at hrow
    obtain ⟨cols, -, hrow⟩ := hrow
    rw [← Res.ok.inj hrow]
    simp only [shares_eq hw, Option.bind, localMean_eq, localVar_eq, and_self]
  · rw [hc i hw c]
    have hp := hw.isShare
    obtain ⟨k1, k2, k3, k4, -⟩ := C40_correlation (X := X) (R := rankX ord X) (W i) hw (pair c)
    have hsq : ∑ l, share (W i) l ^ 2 = ∑ l, share (W i) l * share (W i) l := Finset.sum_congr rfl fun l _ => sq _
    have cor : ∀ (x y : Fin n → ℝ) (e : Option ℝ), (0 < wvar (share (W i)) x → 0 < wvar (share (W i)) y → ∃ r, e = some r ∧
        r * Real.sqrt (wvar (share (W i)) x * wvar (share (W i)) y) = wcov (share (W i)) x y ∧ |r| ≤ 1) →
        (wvar (share (W i)) x = 0 ∨ wvar (share (W i)) y = 0 → e = none) → e = wcor (share (W i)) x y := by
      intro x y e a b
      unfold wcor
      by_cases hv : 0 < wvar (share (W i)) x ∧ 0 < wvar (share (W i)) y
      · rw [if_pos hv]
        obtain ⟨r, e1, e2, -⟩ := a hv.1 hv.2
        rw [e1, ← e2, mul_div_cancel_right₀ _ (Real.sqrt_pos.2 (mul_pos hv.1 hv.2)).ne']
      · rw [if_neg hv]
        refine b ?_
        by_contra hn
        push Not at hn
        exact hv ⟨lt_of_le_of_ne (wvar_nonneg hp) (Ne.symm hn.1), lt_of_le_of_ne (wvar_nonneg hp) (Ne.symm hn.2)⟩
    refine ⟨fun hS => ?_, fun hS => ?_, cor _ _ _ k1 k3, cor _ _ _ k2 k4⟩
    · simp only [corrEntry, covwt_eq hp, odiv]
      rw [if_neg (by rw [← hsq]; intro h0; exact hS (by linarith)), hsq]
    · simp only [corrEntry, covwt_eq hp, odiv]
      rw [if_pos (by rw [← hsq, hS, sub_self])]

/-- A way of sorting as the theorems assume. -/
theorem ex_sorts : ∀ x : Fin n → ℝ, Sorts x (Tuple.sort x) := fun x => Tuple.monotone_sort x

/-- Five observations of one variable, all weighted equally: the run with quantiles succeeds, so C40 and C42 apply. -/
theorem ex_gwss : ∃ rows, gwAverageSerial Tuple.sort (fun (l : Fin 5) (_ : Fin 1) => (l.val : ℝ) ^ 2) true (fun _ _ => 2) (fun _ => false) =
    .ok (rows, false) := by
  refine (C42_defined_iff ex_sorts (fun i => ⟨fun l => by norm_num, ⟨0, by norm_num⟩⟩) (fun _ => rfl)).1.2 fun i j => ?_
  norm_num

example : ∃ rows, gwAverageSerial Tuple.sort (fun (l : Fin 5) (_ : Fin 1) => (l.val : ℝ) ^ 2) true (fun _ _ => 2) (fun _ => false) =
    .ok (rows, false) ∧ (rows 3).mean 0 = some 6 := by
  obtain ⟨rows, h⟩ := ex_gwss
  refine ⟨rows, h, ?_⟩
  obtain ⟨m, h1, h2, -⟩ := C40_mean_between h 3 ⟨fun l => by norm_num, ⟨0, by norm_num⟩⟩ 0
  rw [h1]
  congr 1
  simp [Fin.sum_univ_succ] at h2
  norm_num at h2
  linarith

/-- Two variables that vary: the correlation is defined, and it is 1 for a variable with a multiple of itself. -/
example : (corrEntry (fun (l : Fin 3) (j : Fin 2) => if j = 0 then (l.val : ℝ) else 2 * l.val) (fun _ _ => 0) (share fun _ => 1) (0, 1)).2.1 = some 1 := by
  have hw : Usable (fun _ : Fin 3 => (1 : ℝ)) := ⟨fun l => by norm_num, ⟨0, by norm_num⟩⟩
  have hs : share (fun _ : Fin 3 => (1 : ℝ)) = fun _ => 1 / 3 := by funext l; simp [share]
  have v0 : wvar (share fun _ : Fin 3 => (1 : ℝ)) (fun l : Fin 3 => (l.val : ℝ)) = 2 / 3 := by
    rw [hs]; simp [wvar, wmean, Fin.sum_univ_succ]; norm_num
  have v1 : wvar (share fun _ : Fin 3 => (1 : ℝ)) (fun l : Fin 3 => 2 * (l.val : ℝ)) = 8 / 3 := by
    rw [hs]; simp [wvar, wmean, Fin.sum_univ_succ]; norm_num
  have c : wcov (share fun _ : Fin 3 => (1 : ℝ)) (fun l : Fin 3 => (l.val : ℝ)) (fun l : Fin 3 => 2 * (l.val : ℝ)) = 4 / 3 := by
    rw [hs]; simp [wcov, wmean, Fin.sum_univ_succ]; norm_num
  obtain ⟨r, h1, h2, -⟩ := (C40_correlation (X := fun (l : Fin 3) (j : Fin 2) => if j = 0 then (l.val : ℝ) else 2 * l.val)
    (R := fun _ _ => 0) _ hw (0, 1)).1 (by simp [v0]) (by simp [v1])
  rw [h1]
  simp only [if_true, Fin.isValue, one_ne_zero, if_false, v0, v1, c] at h2
  rw [show (2 / 3 * (8 / 3) : ℝ) = (4 / 3) * (4 / 3) by norm_num, Real.sqrt_mul_self (by norm_num)] at h2
  congr 1
  linarith

end Verif.Props

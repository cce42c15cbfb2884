import Verif.Model.GWDA
import Verif.Spec.Discriminant
import Verif.Spec.Ridge
import Mathlib.Analysis.Complex.ExponentialBounds

/-! # Discriminant analysis -/

namespace Verif.Props
open Verif Verif.Model Verif.Spec Matrix

variable {n k : ℕ} {α : Type} [DecidableEq α]

/-! ## Classes -/

theorem levels_snoc (y : List α) (s : α) :
    gwdaLevels (y ++ [s]) = if s ∈ gwdaLevels y then gwdaLevels y else gwdaLevels y ++ [s] := by
  rw [gwdaLevels, List.foldl_append]; rfl

/-- C45: the classes are listed without repetition, they are exactly the labels that occur, in order of first appearance. -/
theorem C45_levels (y : List α) :
    (gwdaLevels y).Nodup ∧ (∀ s, s ∈ gwdaLevels y ↔ s ∈ y) ∧ (gwdaLevels y).Pairwise fun a b => y.idxOf a < y.idxOf b := by
  induction y using List.reverseRecOn with
  | nil => simp [gwdaLevels]
  | append_singleton y s ih =>
    obtain ⟨h1, h2, h3⟩ := ih
    have h3' : (gwdaLevels y).Pairwise fun a b => (y ++ [s]).idxOf a < (y ++ [s]).idxOf b := by
      refine List.Pairwise.imp_of_mem ?_ h3
      intro a b ha hb hab
      rw [List.idxOf_append_of_mem ((h2 a).1 ha), List.idxOf_append_of_mem ((h2 b).1 hb)]
      exact hab
    rw [levels_snoc]
    by_cases hs : s ∈ gwdaLevels y
    · rw [if_pos hs]
      refine ⟨h1, fun t => ?_, h3'⟩
      rw [h2 t, List.mem_append, List.mem_singleton]
      constructor
      · exact Or.inl
      · rintro (h | h)
        · exact h
        · rw [h]; exact (h2 s).1 hs
    · rw [if_neg hs]
      have hs' : s ∉ y := fun h => hs ((h2 s).2 h)
      refine ⟨?_, fun t => ?_, ?_⟩
      · rw [List.nodup_append]
        refine ⟨h1, by simp, ?_⟩
        intro a ha b hb hab
        rw [List.mem_singleton] at hb
        exact hs (by rw [← hb, ← hab]; exact ha)
      · simp [List.mem_append, h2 t]
      · rw [List.pairwise_append]
        refine ⟨h3', by simp, ?_⟩
        intro a ha b hb
        rw [List.mem_singleton] at hb
        subst hb
        rw [List.idxOf_append_of_mem ((h2 a).1 ha), List.idxOf_append_of_notMem hs']
        have := List.idxOf_lt_length_iff.2 ((h2 a).1 ha)
        simp; omega

theorem mem_findSame (y : Fin n → α) (s : α) (l : Fin n) : l ∈ findSame y s ↔ y l = s := by
  simp [findSame]

theorem nodup_findSame (y : Fin n → α) (s : α) : (findSame y s).Nodup := List.Nodup.filter _ (List.nodup_finRange n)

/-- C45: the split into classes is a partition: every observation is in exactly one class, once, and the classes keep the order. -/
theorem C45_partition (x : Matrix (Fin n) (Fin k) ℝ) (y : Fin n → α) :
    (∀ l, ∃! i : Fin (gwdaLevels (List.ofFn y)).length, l ∈ findSame y ((gwdaLevels (List.ofFn y)).get i)) ∧
    (∀ s, (findSame y s).Pairwise (· < ·)) ∧
    (∀ (i : ℕ) (hi : i < (splitX x y).length) (hl : i < (gwdaLevels (List.ofFn y)).length),
      (splitX x y)[i] = (findSame y (gwdaLevels (List.ofFn y))[i]).map x) ∧
    (splitX x y).length = (gwdaLevels (List.ofFn y)).length := by
  obtain ⟨h1, h2, -⟩ := C45_levels (List.ofFn y)
  refine ⟨fun l => ?_, fun s => ?_, fun i hi hl => by simp [splitX], by simp [splitX]⟩
  · have hm : y l ∈ gwdaLevels (List.ofFn y) := (h2 _).2 (by simp)
    obtain ⟨i, hi⟩ := List.get_of_mem hm
    refine ⟨i, (mem_findSame y _ l).2 hi.symm, ?_⟩
    intro i' hi'
    have := (mem_findSame y _ l).1 hi'
    exact h1.injective_get (this.symm.trans hi.symm)
  · exact List.Pairwise.filter _ (List.pairwise_lt_finRange n)

theorem ytable_eq_count (y : List α) (s : α) : ytable y s = y.count s := by
  induction y using List.reverseRecOn with
  | nil => simp [ytable]
  | append_singleton y t ih =>
    have : ytable (y ++ [t]) = Function.update (ytable y) t (ytable y t + 1) := by
      simp [ytable, List.foldl_append]
    rw [this, List.count_append]
    by_cases h : s = t
    · subst h; simp [ih]
    · rw [Function.update_of_ne h, ih, List.count_singleton]
      simp [Ne.symm h]

theorem findSame_sum (y : Fin n → α) (s : α) (f : Fin n → ℝ) : ((findSame y s).map f).sum = ∑ l with y l = s, f l := by
  rw [Finset.sum_filter, Fin.sum_univ_def]
  unfold findSame
  induction List.finRange n with
  | nil => simp
  | cons a t ih =>
    by_cases h : y a = s <;> simp [h, ih]

theorem levels_toFinset (y : Fin n → α) : (gwdaLevels (List.ofFn y)).toFinset = Finset.univ.image y := by
  ext s
  rw [List.mem_toFinset, (C45_levels _).2.1]
  simp [List.mem_ofFn']

theorem levels_sum (y : Fin n → α) (f : α → ℝ) :
    ∑ i : Fin (gwdaLevels (List.ofFn y)).length, f ((gwdaLevels (List.ofFn y)).get i) = ∑ s ∈ Finset.univ.image y, f s := by
  rw [← levels_toFinset, List.sum_toFinset _ (C45_levels _).1, ← List.sum_ofFn]
  congr 1
  conv_rhs => rw [← List.ofFn_get (gwdaLevels (List.ofFn y))]
  rw [List.map_ofFn]
  rfl

theorem ytable_card (y : Fin n → α) (s : α) : ytable (List.ofFn y) s = Fintype.card {l // y l = s} := by
  rw [ytable_eq_count, Fintype.card_subtype]
  have : (Finset.univ.filter fun l => y l = s).card = (findSame y s).length := by
    rw [← List.toFinset_card_of_nodup (nodup_findSame y s)]
    congr 1
    ext l
    simp [mem_findSame]
  rw [this, findSame, ← List.countP_eq_length_filter, List.count, List.ofFn_eq_map, List.countP_map]
  rfl

/-- C45: the table counts every label, and the counts of the classes add up to the number of observations. -/
theorem C45_sizes (y : Fin n → α) :
    (∀ s, ytable (List.ofFn y) s = Fintype.card {l // y l = s}) ∧ (∀ s, ytable (List.ofFn y) s = (findSame y s).length) ∧
    ∑ i : Fin (gwdaLevels (List.ofFn y)).length, ytable (List.ofFn y) ((gwdaLevels (List.ofFn y)).get i) = n := by
  have hlen : ∀ s, ytable (List.ofFn y) s = (findSame y s).length := by
    intro s
    rw [ytable_card, Fintype.card_subtype, ← List.toFinset_card_of_nodup (nodup_findSame y s)]
    congr 1
    ext l
    simp [mem_findSame]
  refine ⟨ytable_card y, hlen, ?_⟩
  have h := levels_sum y (fun s => (ytable (List.ofFn y) s : ℝ))
  have h2 : ∑ s ∈ Finset.univ.image y, (ytable (List.ofFn y) s : ℝ) = n := by
    have : ∀ s, (ytable (List.ofFn y) s : ℝ) = ∑ l with y l = s, (1 : ℝ) := by
      intro s; rw [ytable_card, Fintype.card_subtype]; simp
    simp only [this]
    rw [Finset.sum_fiberwise_of_maps_to (fun l _ => Finset.mem_image_of_mem y (Finset.mem_univ l))]
    simp
  have h3 := h.trans h2
  exact_mod_cast h3

/-- C45: the predicted label is one of the labels of the data, and it attains the smallest score; with data there always is one. -/
theorem C45_group (y : Fin n → α) (scores : Fin (gwdaLevels (List.ofFn y)).length → ℝ) (hn : 0 < n) :
    ∃ i, gwdaGroup (gwdaLevels (List.ofFn y)) scores = .ok ((gwdaLevels (List.ofFn y)).get i) ∧ (∀ i', scores i ≤ scores i') ∧
      ∃ l, y l = (gwdaLevels (List.ofFn y)).get i := by
  unfold gwdaGroup
  cases h : (List.finRange (gwdaLevels (List.ofFn y)).length).argmin scores with
  | none =>
    exfalso
    rw [List.argmin_eq_none, List.finRange_eq_nil_iff] at h
    have : y ⟨0, hn⟩ ∈ gwdaLevels (List.ofFn y) := ((C45_levels _).2.1 _).2 (by simp)
    rw [List.length_eq_zero_iff.1 h] at this
    simp at this
  | some i =>
    refine ⟨i, rfl, fun i' => List.le_of_mem_argmin (List.mem_finRange i') h, ?_⟩
    have : (gwdaLevels (List.ofFn y)).get i ∈ List.ofFn y := ((C45_levels _).2.1 _).1 (List.get_mem _ _)
    simpa [List.mem_ofFn'] using this

/-- C45: the correct rate is the share of the observations whose label is predicted, between 0 and 1. -/
theorem C45_correct_rate (y group : Fin n → α) (hn : 0 < n) :
    ∃ v, correctRate y group = .ok v ∧ v * n = Fintype.card {l // group l = y l} ∧ 0 ≤ v ∧ v ≤ 1 := by
  have hn' : (0 : ℝ) < n := by exact_mod_cast hn
  refine ⟨_, by rw [correctRate, fdiv, if_neg hn'.ne'], ?_, by positivity, ?_⟩
  · rw [div_mul_cancel₀ _ hn'.ne', Fintype.card_subtype]
  · rw [div_le_one hn']
    have := Finset.card_filter_le (Finset.univ : Finset (Fin n)) (fun i => group i = y i)
    rw [Finset.card_univ, Fintype.card_fin] at this
    exact_mod_cast this

/-! ## Entropy -/

theorem shannon_bounds {m : ℕ} (p : Fin m → ℝ) (v : ℝ) (h : shannonEntropy p = .ok v) : 0 ≤ v ∧ v ≤ Real.logb 2 m := by
  unfold shannonEntropy at h
  split_ifs at h with h0 h1
  · simp only [Res.ok.injEq] at h
    refine ⟨h.le, ?_⟩
    rw [← h]
    apply Real.logb_nonneg (by norm_num)
    exact_mod_cast Nat.one_le_iff_ne_zero.2 h0
  · push Not at h1
    obtain ⟨hp, hS⟩ := h1
    have hm : (0 : ℝ) < m := by exact_mod_cast Nat.pos_of_ne_zero h0
    have hl2 : 0 < Real.log 2 := Real.log_pos (by norm_num)
    simp only [Res.ok.injEq] at h
    set S := ∑ i, p i with hSdef
    have hq1 : ∑ i with 0 < p i, p i / S = 1 := by
      rw [← Finset.sum_div, Finset.sum_filter_of_ne, ← hSdef, div_self hS.ne']
      intro i _ hi
      exact lt_of_le_of_ne (hp i) (Ne.symm hi)
    rw [← h, ← Finset.sum_neg_distrib]
    constructor
    · apply Finset.sum_nonneg
      intro i hi
      have hi' := (Finset.mem_filter.1 hi).2
      have hle : p i / S ≤ 1 := by
        rw [div_le_one hS]
        exact Finset.single_le_sum (fun i _ => hp i) (Finset.mem_univ i)
      have : Real.logb 2 (p i / S) ≤ 0 := Real.logb_nonpos (by norm_num) (div_pos hi' hS).le hle
      have h2 : 0 ≤ p i / S := (div_pos hi' hS).le
      nlinarith
    · have key : ∀ i ∈ Finset.univ.filter (fun i => 0 < p i),
          -(Real.logb 2 (p i / S) * (p i / S)) ≤ (1 / m - p i / S + p i / S * Real.log m) / Real.log 2 := by
        intro i hi
        have hi' := (Finset.mem_filter.1 hi).2
        have hq : 0 < p i / S := div_pos hi' hS
        have hlog : Real.log (1 / (m * (p i / S))) ≤ 1 / (m * (p i / S)) - 1 := Real.log_le_sub_one_of_pos (by positivity)
        rw [one_div, Real.log_inv, Real.log_mul hm.ne' hq.ne'] at hlog
        rw [Real.logb, le_div_iff₀ hl2]
        have : -(Real.log (p i / S) / Real.log 2 * (p i / S)) * Real.log 2 = -Real.log (p i / S) * (p i / S) := by
          field_simp
        rw [this]
        have h3 : ((m : ℝ) * (p i / S))⁻¹ * (p i / S) = 1 / m := by field_simp
        nlinarith [mul_le_mul_of_nonneg_right hlog hq.le]
      refine (Finset.sum_le_sum key).trans ?_
      rw [← Finset.sum_div, Finset.sum_add_distrib, Finset.sum_sub_distrib, ← Finset.sum_mul, hq1, Real.logb]
      apply div_le_div_of_nonneg_right _ hl2.le
      have hc : ∑ i ∈ Finset.univ.filter (fun i => 0 < p i), (1 / m : ℝ) ≤ 1 := by
        rw [Finset.sum_const, nsmul_eq_mul, mul_one_div, div_le_one hm]
        have := Finset.card_filter_le (Finset.univ : Finset (Fin m)) (fun i => 0 < p i)
        rw [Finset.card_univ, Fintype.card_fin] at this
        exact_mod_cast this
      linarith

theorem shannon_const {m : ℕ} (hm : m ≠ 0) (c : ℝ) (hc : 0 < c) : shannonEntropy (fun _ : Fin m => c) = .ok (Real.logb 2 m) := by
  have hm' : (0 : ℝ) < m := by exact_mod_cast Nat.pos_of_ne_zero hm
  have hS : ∑ _i : Fin m, c = m * c := by simp
  unfold shannonEntropy
  rw [if_neg hm, if_neg]
  · congr 1
    rw [hS, Finset.filter_true_of_mem (fun _ _ => hc), Finset.sum_const, Finset.card_univ, Fintype.card_fin, nsmul_eq_mul]
    have : c / (m * c) = (m : ℝ)⁻¹ := by field_simp
    rw [this, Real.logb_inv]
    field_simp
  · rw [hS]
    push Not
    exact ⟨fun _ => hc.le, by positivity⟩

/-- C45: the entropy function lies between 0 and the entropy of the uniform distribution over the entries, which equal entries attain. -/
theorem C45_entropy {m : ℕ} (p : Fin m → ℝ) (v : ℝ) (h : shannonEntropy p = .ok v) :
    0 ≤ v ∧ v ≤ Real.logb 2 m ∧ ∀ c > 0, shannonEntropy (fun _ : Fin m => c) = .ok (Real.logb 2 m) := by
  refine ⟨(shannon_bounds p v h).1, (shannon_bounds p v h).2, fun c hc => shannon_const ?_ c hc⟩
  rintro rfl
  simp [shannonEntropy] at h

/-- C80 fails: with two classes the published entropy is never a number, whatever the data (division by the entropy of one class). -/
theorem C80_two_classes_no_entropy (probs : Fin 2 → ℝ) : gwdaEntropy probs = .nonfinite := by
  have h1 : shannonEntropy (fun _ : Fin (2 - 1) => 1 / (((2 : ℕ) : ℝ) - 1)) = .ok 0 := by
    have := shannon_const (m := 2 - 1) (by norm_num) (1 / (((2 : ℕ) : ℝ) - 1)) (by norm_num)
    rw [this]; norm_num
  obtain ⟨v, hv⟩ : ∃ v, shannonEntropy probs = .ok v := by
    unfold shannonEntropy
    rw [if_neg (by norm_num)]
    split_ifs
    · exact ⟨_, rfl⟩
    · exact ⟨_, rfl⟩
  rw [gwdaEntropy, h1, hv]
  simp [Res.bind, fdiv]

/-- C80 (what holds): with three or more classes the published entropy is at most the ratio of the logarithms of the number of classes
and of one class less. -/
theorem C80_entropy_bound_partial {m : ℕ} (hm : 3 ≤ m) (probs : Fin m → ℝ) :
    ∃ v, gwdaEntropy probs = .ok v ∧ 0 ≤ v ∧ v ≤ Real.log m / Real.log (m - 1) := by
  have hm' : (3 : ℝ) ≤ m := by exact_mod_cast hm
  have hcast : ((m - 1 : ℕ) : ℝ) = m - 1 := by push_cast [show 1 ≤ m by omega]; ring
  have h1 : shannonEntropy (fun _ : Fin (m - 1) => 1 / ((m : ℝ) - 1)) = .ok (Real.logb 2 ((m - 1 : ℕ) : ℝ)) :=
    shannon_const (by omega) _ (by apply one_div_pos.2; linarith)
  obtain ⟨v, hv⟩ : ∃ v, shannonEntropy probs = .ok v := by
    unfold shannonEntropy
    rw [if_neg (by omega)]
    split_ifs
    · exact ⟨_, rfl⟩
    · exact ⟨_, rfl⟩
  have hb := shannon_bounds probs v hv
  have hl2 : 0 < Real.log 2 := Real.log_pos (by norm_num)
  have hl : 0 < Real.log ((m : ℝ) - 1) := Real.log_pos (by linarith)
  have hpos : 0 < Real.logb 2 ((m - 1 : ℕ) : ℝ) := by rw [hcast, Real.logb]; positivity
  refine ⟨v / Real.logb 2 ((m - 1 : ℕ) : ℝ), ?_, div_nonneg hb.1 hpos.le, ?_⟩
  · rw [gwdaEntropy, h1, hv]
    simp only [Res.bind, fdiv]
    rw [if_neg hpos.ne']
  · refine (div_le_div_of_nonneg_right hb.2 hpos.le).trans (le_of_eq ?_)
    rw [hcast, Real.logb, Real.logb]
    field_simp

/-- C80 fails: equal probabilities get an entropy above 1, the documented maximum. -/
theorem C80_entropy_exceeds_one {m : ℕ} (hm : 3 ≤ m) (c : ℝ) (hc : 0 < c) :
    ∃ v, gwdaEntropy (fun _ : Fin m => c) = .ok v ∧ 1 < v := by
  have hm' : (3 : ℝ) ≤ m := by exact_mod_cast hm
  have hcast : ((m - 1 : ℕ) : ℝ) = m - 1 := by push_cast [show 1 ≤ m by omega]; ring
  have h1 : shannonEntropy (fun _ : Fin (m - 1) => 1 / ((m : ℝ) - 1)) = .ok (Real.logb 2 ((m - 1 : ℕ) : ℝ)) :=
    shannon_const (by omega) _ (by apply one_div_pos.2; linarith)
  have hpos : 0 < Real.logb 2 ((m - 1 : ℕ) : ℝ) := Real.logb_pos (by norm_num) (by rw [hcast]; linarith)
  refine ⟨_, by rw [gwdaEntropy, h1, shannon_const (by omega) c hc]; simp only [Res.bind, fdiv]; rw [if_neg hpos.ne'], ?_⟩
  rw [one_lt_div hpos, hcast]
  exact Real.logb_lt_logb (by norm_num) (by linarith) (by linarith)

/-! ## The linear rule -/

theorem classWeight_eq (y : Fin n → α) (s : α) (wt : Fin n → Fin n → ℝ) (j : Fin n) :
    classWeight wt (findSame y s) j = classTotal y (fun l => wt l j) s := findSame_sum y s _

theorem wMean_spec (x : Matrix (Fin n) (Fin k) ℝ) (y : Fin n → α) (s : α) (wt : Fin n → Fin n → ℝ) (j : Fin n) (mean : Fin k → ℝ)
    (h : wMean x wt (findSame y s) j = .ok mean) : mean = classMean x y (fun l => wt l j) s := by
  unfold wMean at h
  split_ifs at h with h0
  simp only [Res.ok.injEq] at h
  rw [← h]
  funext c
  rw [findSame_sum, classWeight_eq]
  rfl

theorem wVarCov_spec (x : Matrix (Fin n) (Fin k) ℝ) (y : Fin n → α) (s : α) (wt : Fin n → Fin n → ℝ) (j : Fin n)
    (cov : Matrix (Fin k) (Fin k) ℝ) (h : wVarCov x wt (findSame y s) j = .ok cov) : cov = classCov x y (fun l => wt l j) s := by
  unfold wVarCov at h
  split_ifs at h with h0
  have hp : ∀ l, wt l j / classWeight wt (findSame y s) j = classP y (fun l => wt l j) s l := by
    intro l; rw [classWeight_eq]; rfl
  simp only [hp] at h
  rw [classWeight_eq] at h0
  have h1 : ((findSame y s).map (classP y (fun l => wt l j) s)).sum = 1 := by
    rw [findSame_sum]
    simp only [classP]
    rw [← Finset.sum_div]
    exact div_self h0
  unfold covwtmat at h
  simp only [show ((findSame y s).map fun l => classP y (fun l => wt l j) s l).sum = 1 from h1, one_mul, div_one] at h
  split_ifs at h with h2
  simp only [Res.ok.injEq] at h
  rw [← h]
  ext a b
  simp only [Matrix.of_apply, classCov, findSame_sum, classMean, pow_two]
  have hc : ∀ c, ∑ l with y l = s, x l c * classP y (fun l => wt l j) s l = ∑ l with y l = s, classP y (fun l => wt l j) s l * x l c :=
    fun c => Finset.sum_congr rfl fun l _ => mul_comm _ _
  rw [hc, hc, one_div, inv_mul_eq_div]

theorem pooledCov_spec (e : GwdaEnv k) (x : Matrix (Fin n) (Fin k) ℝ) (y : Fin n → α) (wt : Fin n → Fin n → ℝ) (j : Fin n)
    (cov : Matrix (Fin k) (Fin k) ℝ) (h : pooledCov e x y (gwdaLevels (List.ofFn y)) wt j = .ok cov) :
    cov = pooled x y (fun l => if e.hasCov then wt l j else 1) := by
  unfold pooledCov at h
  rw [Res.bind_eq_ok'] at h
  obtain ⟨sig, hsig, h⟩ := h
  rw [Res.tabulate_eq_ok] at hsig
  simp only at h
  split_ifs at h with h0
  simp only [Res.ok.injEq] at h
  have hw : ∀ l, (if e.hasCov then wt else wtOnes n) l j = if e.hasCov then wt l j else 1 := by
    intro l; cases e.hasCov <;> rfl
  have hs : ∀ i, sig i = classCov x y (fun l => if e.hasCov then wt l j else 1) ((gwdaLevels (List.ofFn y)).get i) := by
    intro i
    have := wVarCov_spec x y _ _ j _ (hsig i)
    simpa only [hw] using this
  rw [← h]
  ext a b
  simp only [Matrix.of_apply, pooled, hs]
  have h1 := levels_sum y (fun s => (ytable (List.ofFn y) s : ℝ) * classCov x y (fun l => if e.hasCov then wt l j else 1) s a b)
  have h2 : ∑ i : Fin (gwdaLevels (List.ofFn y)).length, (ytable (List.ofFn y) ((gwdaLevels (List.ofFn y)).get i) : ℝ) = n := by
    exact_mod_cast (C45_sizes y).2.2
  rw [h1, h2]
  simp only [(C45_sizes y).1]

/-- The weights used for location `j`: the first serial run leaves the location itself out. -/
def usedWeight (s : GwdaState) (W : Fin n → Fin n → ℝ) (j l : Fin n) : ℝ :=
  if s.parallel = false ∧ s.prSet = false ∧ l = j then 0 else W j l

/-- C79: linear discriminant analysis names a class that minimises half the squared Mahalanobis distance to the local mean, in the
pooled local covariance, minus the logarithm of the local prior (each local or global as chosen by the options). -/
theorem C79_linear_rule (e : GwdaEnv k) (st st' : GwdaState) (hst : st.isWqda = false) (x : Matrix (Fin n) (Fin k) ℝ) (y : Fin n → α)
    (W : Fin n → Fin n → ℝ) (hW : ∀ j l, 0 ≤ W j l) (rows : Fin n → Fin (gwdaLevels (List.ofFn y)).length → ℝ)
    (hrun : gwdaRun e st x y W = .ok (st', rows)) (j : Fin n) (s : α) (hs : gwdaGroup _ (rows j) = .ok s)
    (hdet : (pooled x y (fun l => if e.hasCov then usedWeight st W j l else 1)).det ≠ 0) (l : Fin n) :
    ldaCost (x j) (classMean x y (fun l => if e.hasMean then usedWeight st W j l else 1) s)
      (pooled x y (fun l => if e.hasCov then usedWeight st W j l else 1))
      (classPrior y (fun l => if e.hasPrior then usedWeight st W j l else 1) s) ≤
    ldaCost (x j) (classMean x y (fun l => if e.hasMean then usedWeight st W j l else 1) (y l))
      (pooled x y (fun l => if e.hasCov then usedWeight st W j l else 1))
      (classPrior y (fun l => if e.hasPrior then usedWeight st W j l else 1) (y l)) := by
  have hn : 0 < n := j.pos
  unfold gwdaRun at hrun
  by_cases hk : k < 2
  · rw [if_pos hk] at hrun; cases hrun
  rw [if_neg hk] at hrun
  simp only [hst] at hrun
  set wt := if st.parallel then gwdaWtOmp W else gwdaWtSerial st.prSet W with hwt
  have hwtj : ∀ j l, wt l j = usedWeight st W j l := by
    intro j l
    rw [hwt]
    unfold usedWeight gwdaWtOmp gwdaWtSerial
    cases st.parallel <;> cases st.prSet <;> simp
  have hnn : ∀ j l, 0 ≤ wt l j := by
    intro j l; rw [hwtj]; unfold usedWeight; split_ifs
    · exact le_rfl
    · exact hW j l
  rw [Res.bind_eq_ok'] at hrun
  obtain ⟨rows', hrows, hrun⟩ := hrun
  simp only [Res.ok.injEq, Prod.mk.injEq] at hrun
  obtain ⟨-, rfl⟩ := hrun
  rw [Res.tabulate_eq_ok] at hrows
  have hrow := hrows j
  simp only [Bool.false_eq_true, if_false] at hrow
  unfold wldaRow at hrow
  rw [Res.bind_eq_ok'] at hrow
  obtain ⟨cov, hcov, hrow⟩ := hrow
  rw [Res.tabulate_eq_ok] at hrow
  have hcov' := pooledCov_spec e x y wt j cov hcov
  simp only [hwtj] at hcov'
  set wp : Fin n → Fin n → ℝ := if e.hasPrior then wt else wtOnes n with hwp
  have hwpj : ∀ l, wp l j = if e.hasPrior then usedWeight st W j l else 1 := by
    intro l; rw [hwp, ← hwtj]; cases e.hasPrior <;> rfl
  have hwpnn : ∀ j l, 0 ≤ wp l j := by
    intro j l; rw [hwp]; cases e.hasPrior
    · simp [wtOnes]
    · exact hnn j l
  have hwmj : ∀ l, (if e.hasMean then wt else wtOnes n) l j = if e.hasMean then usedWeight st W j l else 1 := by
    intro l; rw [← hwtj]; cases e.hasMean <;> rfl
  -- every score is the cost plus a term that is the same for all classes
  have hscore : ∀ i, rows' j i = ldaCost (x j)
      (classMean x y (fun l => if e.hasMean then usedWeight st W j l else 1) ((gwdaLevels (List.ofFn y)).get i)) cov
      (classPrior y (fun l => if e.hasPrior then usedWeight st W j l else 1) ((gwdaLevels (List.ofFn y)).get i)) +
      ((((gwdaLevels (List.ofFn y)).length / 2 : ℕ) : ℝ) * Real.log (e.nrm cov) + Real.log (accu wp) - Real.log (∑ l, wp l j)) := by
    intro i
    have h := hrow i
    rw [Res.bind_eq_ok'] at h
    obtain ⟨mean, hmean, h⟩ := h
    rw [Res.bind_eq_ok'] at h
    obtain ⟨pr, hpr, h⟩ := h
    have hmean' := wMean_spec x y _ _ j mean hmean
    simp only [hwmj] at hmean'
    unfold gwdaScore at h
    rw [Res.bind_eq_ok'] at h
    obtain ⟨v, hv, h⟩ := h
    rw [Res.bind_eq_ok'] at h
    obtain ⟨ln, hln, h⟩ := h
    rw [Res.bind_eq_ok'] at h
    obtain ⟨lp, hlp, h⟩ := h
    rw [gwdaSolve, if_pos (by rw [hcov']; exact hdet)] at hv
    unfold flog at hln hlp
    split_ifs at hln with h1
    split_ifs at hlp with h2
    simp only [Res.ok.injEq] at hv hln hlp h
    rw [wPrior, fdiv] at hpr
    split_ifs at hpr with h3
    simp only [Res.ok.injEq] at hpr
    rw [classWeight_eq] at hpr
    simp only [hwpj] at hpr
    push Not at h1 h2
    have hacc : 0 < accu wp := lt_of_le_of_ne (Finset.sum_nonneg fun j _ => Finset.sum_nonneg fun l _ => hwpnn j l) (Ne.symm h3)
    have hct : 0 < classTotal y (fun l => if e.hasPrior then usedWeight st W j l else 1) ((gwdaLevels (List.ofFn y)).get i) := by
      rw [← hpr] at h2
      by_contra hcon
      exact absurd h2 (not_lt.2 (div_nonpos_of_nonpos_of_nonneg (not_lt.1 hcon) hacc.le))
    have htot : 0 < ∑ l, wp l j := by
      refine lt_of_lt_of_le hct ?_
      unfold classTotal
      simp only [← hwpj]
      exact Finset.sum_le_sum_of_subset_of_nonneg (Finset.filter_subset _ _) (fun l _ _ => hwpnn j l)
    have hpr2 : classPrior y (fun l => if e.hasPrior then usedWeight st W j l else 1) ((gwdaLevels (List.ofFn y)).get i) =
        classTotal y (fun l => if e.hasPrior then usedWeight st W j l else 1) ((gwdaLevels (List.ofFn y)).get i) / ∑ l, wp l j := by
      unfold classPrior; simp only [← hwpj]
    rw [← h, ldaCost, hpr2, ← hln, ← hlp, ← hv, ← hpr, ← hmean', Real.log_div hct.ne' hacc.ne', Real.log_div hct.ne' htot.ne']
    ring
  obtain ⟨i, hi, hmin, -⟩ := C45_group y (rows' j) hn
  have hsi : s = (gwdaLevels (List.ofFn y)).get i := by
    have := hs.symm.trans hi
    simpa using this
  obtain ⟨i', hi'⟩ := List.get_of_mem (((C45_levels (List.ofFn y)).2.1 (y l)).2 (by simp))
  have := hmin i'
  rw [hscore i, hscore i', hi', ← hsi, hcov'] at this
  linarith

/-- C81 fails: the quadratic rule cannot be used unless mean, covariance and prior are all local: it throws for all other options. -/
theorem C81_quadratic_needs_all_options (e : GwdaEnv k) (st : GwdaState) (hst : st.isWqda = true) (hk : 2 ≤ k)
    (x : Matrix (Fin n) (Fin k) ℝ) (y : Fin n → α) (hn : 0 < n) (W : Fin n → Fin n → ℝ)
    (h : e.hasMean = false ∨ e.hasCov = false ∨ e.hasPrior = false) : gwdaRun e st x y W = .throw .bounds := by
  obtain ⟨n, rfl⟩ : ∃ m, n = m + 1 := ⟨n - 1, by omega⟩
  unfold gwdaRun
  rw [if_neg (by omega)]
  simp only [hst, if_true, wqdaRow, if_pos h, Res.tabulate, Res.bind]

/-! ## A data set with two classes -/

/-- Two observations of class `false` at `(±a, 0)`, two of class `true` at `(a t, ±a)`. -/
def daX (a t : ℝ) : Matrix (Fin 4) (Fin 2) ℝ := !![a, 0; -a, 0; a * t, a; a * t, -a]

def daY : Fin 4 → Bool := ![false, false, true, true]

/-- Local means, global covariance and prior. -/
def daEnv (nrm : Matrix (Fin 2) (Fin 2) ℝ → ℝ) (sing : Matrix (Fin 2) (Fin 2) ℝ → (Fin 2 → ℝ) → Res (Fin 2 → ℝ)) : GwdaEnv 2 :=
  ⟨false, true, false, nrm, sing⟩

theorem da_levels : gwdaLevels (List.ofFn daY) = [false, true] := by
  simp [gwdaLevels, daY, List.ofFn_succ]

theorem da_false : findSame daY false = [0, 1] := by decide

theorem da_true : findSame daY true = [2, 3] := by decide

theorem largest_smul {c s : ℝ} (hc : 0 < c) (h : IsLargestSV (c • (1 : Matrix (Fin 2) (Fin 2) ℝ)) s) : s = c := by
  obtain ⟨h0, -, v, hv, h⟩ := h
  simp only [Fin.sum_univ_two, Matrix.smul_apply, Matrix.one_apply, smul_eq_mul] at h
  norm_num at h
  have hpos : 0 < v 0 ^ 2 + v 1 ^ 2 := by
    by_contra hcon
    apply hv
    funext i
    fin_cases i
    · simp; nlinarith [sq_nonneg (v 0), sq_nonneg (v 1)]
    · simp; nlinarith [sq_nonneg (v 0), sq_nonneg (v 1)]
  have h2 : s ^ 2 = c ^ 2 := by
    have : (s ^ 2 - c ^ 2) * (v 0 ^ 2 + v 1 ^ 2) = 0 := by linarith
    rcases mul_eq_zero.1 this with h | h
    · linarith
    · linarith
  nlinarith [sq_nonneg (s - c)]

theorem da_score (nrm sing) (hN : ∀ A, IsLargestSV A (nrm A)) (a : ℝ) (ha : 0 < a) (z mean : Fin 2 → ℝ) :
    gwdaScore (daEnv nrm sing) 2 z mean ((a ^ 2) • 1) (1 / 8) =
      .ok (Real.log (a ^ 2) + 1 / 2 * (((z 0 - mean 0) ^ 2 + (z 1 - mean 1) ^ 2) / a ^ 2) + Real.log 8) := by
  have h2 : nrm ((a ^ 2) • 1) = a ^ 2 := largest_smul (by positivity) (hN _)
  have hdet : ((a ^ 2) • (1 : Matrix (Fin 2) (Fin 2) ℝ)).det ≠ 0 := by
    rw [Matrix.det_smul]; simp; exact ha.ne'
  have hinv : ((a ^ 2) • (1 : Matrix (Fin 2) (Fin 2) ℝ))⁻¹ = (a ^ 2)⁻¹ • 1 := by
    apply Matrix.inv_eq_right_inv
    rw [Matrix.smul_mul, Matrix.one_mul, smul_smul, mul_inv_cancel₀ (by positivity), one_smul]
  rw [gwdaScore, gwdaSolve, if_pos hdet, hinv]
  have h3 : (daEnv nrm sing).nrm ((a ^ 2) • 1) = a ^ 2 := h2
  simp only [Res.bind, h3, flog]
  rw [if_neg (not_le.2 (by positivity)), if_neg (by norm_num)]
  simp only [Res.ok.injEq, Matrix.smul_mulVec, Matrix.one_mulVec, dotProduct, Fin.sum_univ_two, Pi.sub_apply, Pi.smul_apply, smul_eq_mul]
  rw [one_div (8 : ℝ), Real.log_inv]
  norm_num
  ring

theorem da_pooled (nrm sing) (a t : ℝ) (wt : Fin 4 → Fin 4 → ℝ) (j : Fin 4) :
    pooledCov (daEnv nrm sing) (daX a t) daY [false, true] wt j = .ok ((a ^ 2) • 1) := by
  have hf : wVarCov (daX a t) (wtOnes 4) (findSame daY false) j = .ok !![2 * a ^ 2, 0; 0, 0] := by
    rw [da_false]
    norm_num [wVarCov, classWeight, wtOnes, covwtmat, daX]
    ext u v
    fin_cases u <;> fin_cases v <;> simp <;> ring
  have ht : wVarCov (daX a t) (wtOnes 4) (findSame daY true) j = .ok !![0, 0; 0, 2 * a ^ 2] := by
    rw [da_true]
    norm_num [wVarCov, classWeight, wtOnes, covwtmat, daX]
    ext u v
    fin_cases u <;> fin_cases v <;> simp <;> ring
  have hsig : Res.tabulate [false, true].length (fun i => wVarCov (daX a t) (if (daEnv nrm sing).hasCov then wt else wtOnes 4)
      (findSame daY ([false, true].get i)) j) = .ok ![!![2 * a ^ 2, 0; 0, 0], !![0, 0; 0, 2 * a ^ 2]] := by
    rw [Res.tabulate_eq_ok]
    intro i
    change Fin 2 at i
    fin_cases i
    · exact hf
    · exact ht
  have hy1 : ytable (List.ofFn daY) false = 2 := by decide
  have hy2 : ytable (List.ofFn daY) true = 2 := by decide
  rw [pooledCov, hsig]
  simp only [Res.bind]
  change (if (∑ i : Fin 2, (ytable (List.ofFn daY) ([false, true].get i) : ℝ)) = 0 then Res.nonfinite
    else Res.ok (Matrix.of fun u v => (∑ i : Fin 2, (ytable (List.ofFn daY) ([false, true].get i) : ℝ) *
      (![!![2 * a ^ 2, 0; 0, 0], !![0, 0; 0, 2 * a ^ 2]] : Fin 2 → Matrix (Fin 2) (Fin 2) ℝ) i u v) /
        ∑ i : Fin 2, (ytable (List.ofFn daY) ([false, true].get i) : ℝ))) = _
  simp only [Fin.sum_univ_two]
  have g0 : [false, true].get (0 : Fin 2) = false := rfl
  have g1 : [false, true].get (1 : Fin 2) = true := rfl
  rw [g0, g1, hy1, hy2, if_neg (by norm_num)]
  congr 1
  ext u v
  fin_cases u <;> fin_cases v <;> simp <;> ring

/-- Squared distances, in units of `a`, of the observations to the means of the two classes; `own` says that an observation counts
for the mean of its own class. -/
noncomputable def daDist (own : Bool) (t : ℝ) (j : Fin 4) (i : ℕ) : ℝ :=
  if i = 0 then ![if own then 1 else 4, if own then 1 else 4, t ^ 2 + 1, t ^ 2 + 1] j
  else ![(t - 1) ^ 2, (t + 1) ^ 2, if own then 1 else 4, if own then 1 else 4] j

theorem da_run (nrm sing) (hN : ∀ A, IsLargestSV A (nrm A)) (a t : ℝ) (ha : 0 < a) (st : GwdaState) (hst : st.isWqda = false) :
    gwdaRun (daEnv nrm sing) st (daX a t) daY (fun _ _ => 1) = .ok ({ st with prSet := true },
      fun j i => Real.log (a ^ 2) + 1 / 2 * daDist (st.parallel || st.prSet) t j i.val + Real.log 8) := by
  have hrow : ∀ j : Fin 4, wldaRow (daEnv nrm sing) (daX a t) daY [false, true]
      (if st.parallel then gwdaWtOmp (fun _ _ => 1) else gwdaWtSerial st.prSet (fun _ _ => 1)) j =
      .ok (fun i => Real.log (a ^ 2) + 1 / 2 * daDist (st.parallel || st.prSet) t j i.val + Real.log 8) := by
    intro j
    rw [wldaRow, da_pooled]
    simp only [Res.bind]
    rw [Res.tabulate_eq_ok]
    intro i
    have hacc : accu (if (daEnv nrm sing).hasPrior then (if st.parallel then gwdaWtOmp (fun _ _ => 1) else
        gwdaWtSerial st.prSet (fun _ _ => 1)) else wtOnes 4) = 16 := by
      simp [daEnv, accu, wtOnes]; norm_num
    have hpr : wPrior (if (daEnv nrm sing).hasPrior then (if st.parallel then gwdaWtOmp (fun _ _ => 1) else
        gwdaWtSerial st.prSet (fun _ _ => 1)) else wtOnes 4) (findSame daY ([false, true].get i)) 16 j = .ok (1 / 8) := by
      change Fin 2 at i
      fin_cases i
      · change wPrior (wtOnes 4) (findSame daY false) 16 j = _
        rw [da_false]; norm_num [wPrior, classWeight, wtOnes, fdiv]
      · change wPrior (wtOnes 4) (findSame daY true) 16 j = _
        rw [da_true]; norm_num [wPrior, classWeight, wtOnes, fdiv]
    rw [hacc, hpr]
    have hmean : ∃ mean, wMean (daX a t) (if st.parallel then gwdaWtOmp (fun _ _ => 1) else gwdaWtSerial st.prSet (fun _ _ => 1))
        (findSame daY ([false, true].get i)) j = .ok mean ∧
        ((daX a t j 0 - mean 0) ^ 2 + (daX a t j 1 - mean 1) ^ 2) / a ^ 2 = daDist (st.parallel || st.prSet) t j i.val := by
      change Fin 2 at i
      have g0 : [false, true].get (0 : Fin 2) = false := rfl
      have g1 : [false, true].get (1 : Fin 2) = true := rfl
      have d20 : (2 : Fin 4) ≠ 0 := by decide
      have d21 : (2 : Fin 4) ≠ 1 := by decide
      have d30 : (3 : Fin 4) ≠ 0 := by decide
      have d31 : (3 : Fin 4) ≠ 1 := by decide
      have d23 : (2 : Fin 4) ≠ 3 := by decide
      have d32 : (3 : Fin 4) ≠ 2 := by decide
      have e00 : daX a t 0 0 = a := rfl
      have e01 : daX a t 0 1 = 0 := rfl
      have e10 : daX a t 1 0 = -a := rfl
      have e11 : daX a t 1 1 = 0 := rfl
      have e20 : daX a t 2 0 = a * t := rfl
      have e21 : daX a t 2 1 = a := rfl
      have e30 : daX a t 3 0 = a * t := rfl
      have e31 : daX a t 3 1 = -a := rfl
      have q2 : ∀ u v w z : ℝ, ![u, v, w, z] (2 : Fin 4) = w := fun _ _ _ _ => rfl
      have q3 : ∀ u v w z : ℝ, ![u, v, w, z] (3 : Fin 4) = z := fun _ _ _ _ => rfl
      have hj : j = 0 ∨ j = 1 ∨ j = 2 ∨ j = 3 := by omega
      obtain ⟨w, par, pr⟩ := st
      fin_cases i
      · change ∃ mean, wMean _ _ (findSame daY false) j = .ok mean ∧ _
        rw [da_false]
        cases par <;> cases pr <;> rcases hj with rfl | rfl | rfl | rfl <;>
        · refine ⟨_, by rw [wMean, if_neg (by norm_num [classWeight, gwdaWtOmp, gwdaWtSerial, d20, d21, d30, d31, d23, d32, d20.symm, d21.symm, d30.symm, d31.symm])], ?_⟩
          norm_num [classWeight, gwdaWtOmp, gwdaWtSerial, e00, e01, e10, e11, e20, e21, e30, e31, daDist, q2, q3, d20, d21, d30, d31, d23, d32, d20.symm, d21.symm, d30.symm, d31.symm, ha.ne']
          try field_simp
          try ring
      · change ∃ mean, wMean _ _ (findSame daY true) j = .ok mean ∧ _
        rw [da_true]
        cases par <;> cases pr <;> rcases hj with rfl | rfl | rfl | rfl <;>
        · refine ⟨_, by rw [wMean, if_neg (by norm_num [classWeight, gwdaWtOmp, gwdaWtSerial, d20, d21, d30, d31, d23, d32, d20.symm, d21.symm, d30.symm, d31.symm])], ?_⟩
          norm_num [classWeight, gwdaWtOmp, gwdaWtSerial, e00, e01, e10, e11, e20, e21, e30, e31, daDist, q2, q3, d20, d21, d30, d31, d23, d32, d20.symm, d21.symm, d30.symm, d31.symm, ha.ne']
          try field_simp
          try ring
    obtain ⟨mean, h1, h2⟩ := hmean
    have h1' : wMean (daX a t) (if (daEnv nrm sing).hasMean then (if st.parallel then gwdaWtOmp (fun _ _ => 1) else
        gwdaWtSerial st.prSet (fun _ _ => 1)) else wtOnes 4) (findSame daY ([false, true].get i)) j = .ok mean := h1
    rw [h1', ← h2]
    exact da_score nrm sing hN a ha _ _
  unfold gwdaRun
  rw [if_neg (by norm_num)]
  simp only [hst, Bool.false_eq_true, if_false]
  have := (Res.tabulate_eq_ok (n := 4) (f := fun j => wldaRow (daEnv nrm sing) (daX a t) daY (gwdaLevels (List.ofFn daY))
      (if st.parallel then gwdaWtOmp (fun _ _ => 1) else gwdaWtSerial st.prSet (fun _ _ => 1)) j)
      (v := fun j i => Real.log (a ^ 2) + 1 / 2 * daDist (st.parallel || st.prSet) t j i.val + Real.log 8)).2 (by
        rw [da_levels]; exact hrow)
  rw [this]
  rfl

/-- Every matrix with at least one column has a largest singular value. -/
theorem exists_largestSV {m p : ℕ} (hp : 0 < p) (A : Matrix (Fin m) (Fin p) ℝ) : ∃ s, IsLargestSV A s := by
  set f : (Fin p → ℝ) → ℝ := fun v => ∑ l, (∑ j, A l j * v j) ^ 2 with hf
  set K : Set (Fin p → ℝ) := {v | ∑ j, v j ^ 2 = 1} with hK
  have hcompact : IsCompact K := by
    apply Metric.isCompact_of_isClosed_isBounded
    · exact isClosed_eq (by fun_prop) continuous_const
    · apply (Metric.isBounded_closedBall (x := (0 : Fin p → ℝ)) (r := 1)).subset
      intro v hv
      rw [Metric.mem_closedBall, dist_zero_right, pi_norm_le_iff_of_nonneg zero_le_one]
      intro j
      rw [Real.norm_eq_abs, ← sq_le_one_iff_abs_le_one]
      calc v j ^ 2 ≤ ∑ j, v j ^ 2 := Finset.single_le_sum (f := fun j => v j ^ 2) (fun j _ => sq_nonneg _) (Finset.mem_univ j)
        _ = 1 := hv
  have hne : K.Nonempty := ⟨Pi.single ⟨0, hp⟩ 1, by
    rw [hK, Set.mem_setOf_eq, Finset.sum_eq_single (⟨0, hp⟩ : Fin p)]
    · simp
    · intro j _ hj; simp [Pi.single_eq_of_ne hj]
    · simp⟩
  obtain ⟨v0, hv0, hmax⟩ := hcompact.exists_isMaxOn hne (f := f) (by fun_prop)
  have hf0 : 0 ≤ f v0 := Finset.sum_nonneg fun l _ => sq_nonneg _
  refine ⟨Real.sqrt (f v0), Real.sqrt_nonneg _, fun v => ?_, v0, ?_, ?_⟩
  · rw [Real.sq_sqrt hf0]
    rcases (Finset.sum_nonneg (fun j (_ : j ∈ Finset.univ) => sq_nonneg (v j))).eq_or_lt with h | h
    · have hz : ∀ j, v j = 0 := by
        intro j
        have := (Finset.sum_eq_zero_iff_of_nonneg (fun j _ => sq_nonneg (v j))).1 h.symm j (Finset.mem_univ j)
        exact pow_eq_zero_iff (two_ne_zero) |>.1 this
      simp [hz]
    · set r := Real.sqrt (∑ j, v j ^ 2) with hr
      have hrpos : 0 < r := Real.sqrt_pos.2 h
      have hr2 : r ^ 2 = ∑ j, v j ^ 2 := Real.sq_sqrt h.le
      have hmem : (fun j => v j / r) ∈ K := by
        rw [hK, Set.mem_setOf_eq]
        simp only [div_pow]
        rw [← Finset.sum_div, ← hr2, div_self (by positivity)]
      have h1 : f (fun j => v j / r) ≤ f v0 := hmax hmem
      have h2 : f (fun j => v j / r) = (∑ l, (∑ j, A l j * v j) ^ 2) / r ^ 2 := by
        simp only [hf]
        rw [Finset.sum_div]
        refine Finset.sum_congr rfl fun l _ => ?_
        rw [← div_pow, Finset.sum_div]
        congr 1
        exact Finset.sum_congr rfl fun j _ => by ring
      rw [h2, div_le_iff₀ (by positivity)] at h1
      rw [← hr2]; exact h1
  · rintro rfl
    rw [hK, Set.mem_setOf_eq] at hv0
    simp at hv0
  · rw [Real.sq_sqrt hf0, show ∑ j, v0 j ^ 2 = 1 from hv0, mul_one]

/-- The hypothesis on `norm` used below can be met. -/
theorem ex_norm : ∃ nrm : Matrix (Fin 2) (Fin 2) ℝ → ℝ, ∀ A, IsLargestSV A (nrm A) :=
  ⟨fun A => (exists_largestSV two_pos A).choose, fun A => (exists_largestSV two_pos A).choose_spec⟩

/-- C82 fails: OpenMP and serial runs of the same object on the same data give different scores. -/
theorem C82_parallel_differs (nrm sing) (hN : ∀ A, IsLargestSV A (nrm A)) :
    ∃ (x : Matrix (Fin 4) (Fin 2) ℝ) (y : Fin 4 → Bool) (W : Fin 4 → Fin 4 → ℝ) (e : GwdaEnv 2), e.nrm = nrm ∧ e.solveSingular = sing ∧
      ∃ s₁ r₁ s₂ r₂, gwdaRun e ⟨false, false, false⟩ x y W = .ok (s₁, r₁) ∧ gwdaRun e ⟨false, true, false⟩ x y W = .ok (s₂, r₂) ∧
      r₁ ≠ r₂ := by
  refine ⟨daX 1 20, daY, fun _ _ => 1, daEnv nrm sing, rfl, rfl, _, _, _, _, da_run nrm sing hN 1 20 one_pos _ rfl,
    da_run nrm sing hN 1 20 one_pos _ rfl, fun h => ?_⟩
  have := congrFun (congrFun h 0) ⟨0, by rw [da_levels]; norm_num⟩
  norm_num [daDist] at this

/-- C83 fails: running the same object twice on unchanged data gives different scores: only the first run leaves out the location. -/
theorem C83_second_run_differs (nrm sing) (hN : ∀ A, IsLargestSV A (nrm A)) :
    ∃ (x : Matrix (Fin 4) (Fin 2) ℝ) (y : Fin 4 → Bool) (W : Fin 4 → Fin 4 → ℝ) (e : GwdaEnv 2), e.nrm = nrm ∧ e.solveSingular = sing ∧
      ∃ s₁ r₁ s₂ r₂, gwdaRun e ⟨false, false, false⟩ x y W = .ok (s₁, r₁) ∧ gwdaRun e s₁ x y W = .ok (s₂, r₂) ∧ r₁ ≠ r₂ := by
  refine ⟨daX 1 20, daY, fun _ _ => 1, daEnv nrm sing, rfl, rfl, _, _, _, _, da_run nrm sing hN 1 20 one_pos _ rfl,
    da_run nrm sing hN 1 20 one_pos _ rfl, fun h => ?_⟩
  have := congrFun (congrFun h 0) ⟨0, by rw [da_levels]; norm_num⟩
  norm_num [daDist] at this

/-- C82, C83 (what holds): from the second run on, and always with OpenMP, the scores are those of the full weights, for every data set
and both rules: repeated runs agree with each other and with OpenMP. -/
theorem C83_later_runs_agree_partial (e : GwdaEnv k) (q par par' : Bool) (x : Matrix (Fin n) (Fin k) ℝ) (y : Fin n → α)
    (W : Fin n → Fin n → ℝ) : gwdaRun e ⟨q, par, true⟩ x y W = (gwdaRun e ⟨q, par', true⟩ x y W).bind fun r => .ok (⟨q, par, true⟩, r.2) := by
  have h : ∀ b : Bool, (if b then gwdaWtOmp W else gwdaWtSerial true W) = gwdaWtOmp W := by
    intro b; cases b
    · funext l j; simp [gwdaWtSerial, gwdaWtOmp]
    · rfl
  simp only [gwdaRun, h]
  split_ifs
  · rfl
  all_goals
    generalize Res.tabulate n _ = r
    cases r <;> rfl

/-- C84 (what holds): the numbers published as probabilities add up to one. -/
theorem C84_sum_one_partial {m : ℕ} (scores probs : Fin m → ℝ) (h : gwdaProbs scores = .ok probs) : ∑ i, probs i = 1 := by
  unfold gwdaProbs at h
  simp only at h
  split_ifs at h with h0
  · simp only [Res.ok.injEq] at h
    rw [← h, ← Finset.sum_div, div_self h0]

/-- C84 fails: a published probability can be negative. -/
theorem C84_negative_probability (nrm sing) (hN : ∀ A, IsLargestSV A (nrm A)) :
    ∃ (x : Matrix (Fin 4) (Fin 2) ℝ) (y : Fin 4 → Bool) (W : Fin 4 → Fin 4 → ℝ) (e : GwdaEnv 2), e.nrm = nrm ∧ e.solveSingular = sing ∧
      ∃ s r probs, gwdaRun e ⟨false, false, false⟩ x y W = .ok (s, r) ∧ gwdaProbs (r 0) = .ok probs ∧ ∃ i, probs i < 0 := by
  have hrun := da_run nrm sing hN (Real.exp (-10)) 0 (Real.exp_pos _) ⟨false, false, false⟩ rfl
  have key : ∀ (m : ℕ) (hm : m = 2) (sc : Fin m → ℝ), (∀ i, sc i = Real.log (Real.exp (-10) ^ 2) +
      1 / 2 * daDist (false || false) 0 0 i.val + Real.log 8) → ∃ probs, gwdaProbs sc = .ok probs ∧ ∃ i, probs i < 0 := by
    rintro m rfl sc hsc
    have hl8 : Real.log 8 < 3 := by
      have : Real.log 8 = 3 * Real.log 2 := by
        rw [show (8 : ℝ) = 2 ^ 3 by norm_num, Real.log_pow]; norm_num
      rw [this]; linarith [Real.log_two_lt_d9]
    have hle : Real.log (Real.exp (-10) ^ 2) = -20 := by rw [Real.log_pow, Real.log_exp]; norm_num
    have h0 : sc 0 = -20 + 2 + Real.log 8 := by rw [hsc, hle]; norm_num [daDist]
    have h1 : sc 1 = -20 + 1 / 2 + Real.log 8 := by rw [hsc, hle]; norm_num [daDist]
    have he : Real.exp (sc 0) < 1 := by rw [Real.exp_lt_one_iff]; rw [h0]; linarith
    have hs : ∑ i : Fin 2, (if i.val < 2 - 1 then Real.exp (sc i) else sc i) = Real.exp (sc 0) + sc 1 := by
      simp [Fin.sum_univ_two]
    have hneg : Real.exp (sc 0) + sc 1 < 0 := by linarith
    refine ⟨_, by unfold gwdaProbs; simp only; rw [if_neg (by rw [hs]; exact hneg.ne)], 0, ?_⟩
    simp only [hs]
    exact div_neg_of_pos_of_neg (by simp [Real.exp_pos]) hneg
  obtain ⟨probs, hp, hi⟩ := key (gwdaLevels (List.ofFn daY)).length (by rw [da_levels]; rfl) (fun i => Real.log (Real.exp (-10) ^ 2) +
      1 / 2 * daDist (false || false) 0 0 i.val + Real.log 8) (fun i => rfl)
  exact ⟨daX (Real.exp (-10)) 0, daY, fun _ _ => 1, daEnv nrm sing, rfl, rfl, _, _, probs, hrun, hp, hi⟩

/-- C85 fails: the named class can be published as the less probable one, here for two classes that are far apart. -/
theorem C85_named_class_less_probable (nrm sing) (hN : ∀ A, IsLargestSV A (nrm A)) :
    ∃ (x : Matrix (Fin 4) (Fin 2) ℝ) (y : Fin 4 → Bool) (W : Fin 4 → Fin 4 → ℝ) (e : GwdaEnv 2), e.nrm = nrm ∧ e.solveSingular = sing ∧
      ∃ s r probs, gwdaRun e ⟨false, false, false⟩ x y W = .ok (s, r) ∧ gwdaProbs (r 0) = .ok probs ∧
      ∃ i i', gwdaGroup _ (r 0) = .ok ((gwdaLevels (List.ofFn y)).get i) ∧ probs i < probs i' := by
  have hrun := da_run nrm sing hN 1 20 one_pos ⟨false, false, false⟩ rfl
  have key : ∀ (lev : List Bool) (hm : lev = [false, true]) (sc : Fin lev.length → ℝ), (∀ i, sc i = Real.log (1 ^ 2) +
      1 / 2 * daDist (false || false) 20 0 i.val + Real.log 8) →
      ∃ probs, gwdaProbs sc = .ok probs ∧ ∃ i i', gwdaGroup lev sc = .ok (lev.get i) ∧ probs i < probs i' := by
    rintro lev rfl sc hsc
    have h0 : sc (0 : Fin 2) = 2 + Real.log 8 := by rw [hsc]; norm_num [daDist]
    have h1 : sc (1 : Fin 2) = 361 / 2 + Real.log 8 := by rw [hsc]; norm_num [daDist]
    have hl8 : 0 < Real.log 8 := Real.log_pos (by norm_num)
    have he : Real.exp (sc (0 : Fin 2)) < 100 := by
      rw [h0, Real.exp_add, Real.exp_log (by norm_num), show (2 : ℝ) = 1 + 1 by norm_num, Real.exp_add]
      have := Real.exp_one_lt_d9
      nlinarith [Real.exp_pos 1]
    have hep := Real.exp_pos (sc (0 : Fin 2))
    have hs : ∑ i : Fin 2, (if i.val < 2 - 1 then Real.exp (sc i) else sc i) = Real.exp (sc (0 : Fin 2)) + sc (1 : Fin 2) := by
      simp [Fin.sum_univ_two]
    have hpos : 0 < Real.exp (sc (0 : Fin 2)) + sc (1 : Fin 2) := by linarith
    refine ⟨fun i : Fin 2 => (if i.val < 2 - 1 then Real.exp (sc i) else sc i) / (Real.exp (sc (0 : Fin 2)) + sc (1 : Fin 2)), ?_,
      (0 : Fin 2), (1 : Fin 2), ?_, ?_⟩
    · change (if ∑ i : Fin 2, (if i.val < 2 - 1 then Real.exp (sc i) else sc i) = 0 then Res.nonfinite else
        Res.ok fun i : Fin 2 => (if i.val < 2 - 1 then Real.exp (sc i) else sc i) /
          ∑ i : Fin 2, (if i.val < 2 - 1 then Real.exp (sc i) else sc i)) = _
      rw [hs, if_neg hpos.ne']
    · have hle : ∀ i : Fin 2, sc (0 : Fin 2) ≤ sc i := by
        intro i; fin_cases i
        · exact le_rfl
        · change sc (0 : Fin 2) ≤ sc (1 : Fin 2); rw [h0, h1]; linarith
      have hlt : sc (0 : Fin 2) < sc (1 : Fin 2) := by rw [h0, h1]; linarith
      unfold gwdaGroup
      cases h : (List.finRange [false, true].length).argmin sc with
      | none => rw [List.argmin_eq_none] at h; simp at h
      | some i =>
        have hi := List.le_of_mem_argmin (List.mem_finRange (0 : Fin 2)) h
        change Fin 2 at i
        have : i = 0 := by
          fin_cases i
          · rfl
          · exact absurd hi (not_le.2 hlt)
        rw [this]
    · simp only []
      apply div_lt_div_of_pos_right _ hpos
      simp
      linarith
  obtain ⟨probs, hp, hi⟩ := key _ da_levels (fun i => Real.log (1 ^ 2) +
      1 / 2 * daDist (false || false) 20 0 i.val + Real.log 8) (fun i => rfl)
  exact ⟨daX 1 20, daY, fun _ _ => 1, daEnv nrm sing, rfl, rfl, _, _, probs, hrun, hp, hi⟩

/-- C85: it is not an accident. For every row of scores whose transformed sum is positive, among the classes other than the last one a
smaller score, which makes a class more likely to be named, gives a smaller published probability. -/
theorem C85_order_reversed {m : ℕ} (scores probs : Fin m → ℝ) (h : gwdaProbs scores = .ok probs)
    (hpos : 0 < ∑ i : Fin m, if i.val < m - 1 then Real.exp (scores i) else scores i) (i i' : Fin m) (hi : i.val < m - 1)
    (hi' : i'.val < m - 1) : probs i < probs i' ↔ scores i < scores i' := by
  unfold gwdaProbs at h
  simp only at h
  rw [if_neg hpos.ne'] at h
  simp only [Res.ok.injEq] at h
  rw [← h]
  simp only [if_pos hi, if_pos hi', div_lt_div_iff_of_pos_right hpos, Real.exp_lt_exp]

/-- The hypotheses of C79 are met by the data set above. -/
theorem ex_daRun (nrm sing) (hN : ∀ A, IsLargestSV A (nrm A)) : ∃ st' rows s,
    gwdaRun (daEnv nrm sing) ⟨false, false, false⟩ (daX 1 20) daY (fun _ _ => 1) = .ok (st', rows) ∧ gwdaGroup _ (rows 0) = .ok s ∧
    (pooled (daX 1 20) daY (fun l => if (daEnv nrm sing).hasCov then usedWeight ⟨false, false, false⟩ (fun _ _ => 1) 0 l else 1)).det ≠ 0 := by
  obtain ⟨i, hi, -, -⟩ := C45_group daY (fun i => Real.log (1 ^ 2) + 1 / 2 * daDist (false || false) 20 0 i.val + Real.log 8) (by norm_num)
  refine ⟨_, _, _, da_run nrm sing hN 1 20 one_pos _ rfl, hi, ?_⟩
  have h := da_pooled nrm sing 1 20 (wtOnes 4) 0
  have h2 := pooledCov_spec (daEnv nrm sing) (daX 1 20) daY (wtOnes 4) 0 _ (by rw [da_levels]; exact h)
  have h3 : (fun l : Fin 4 => if (daEnv nrm sing).hasCov then wtOnes 4 l 0 else 1) =
      fun l => if (daEnv nrm sing).hasCov then usedWeight ⟨false, false, false⟩ (fun _ _ => 1) 0 l else 1 := by
    funext l; rfl
  rw [← h3, ← h2]
  simp

end Verif.Props

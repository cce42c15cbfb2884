import Verif.Model.GWRCuda
import Verif.Props.Mpi

/-! # C33: batching of observations on the GPU -/

namespace Verif.Props
open Verif Verif.Model Verif.Spec Matrix Classical

variable {n k m : ℕ}

theorem resFold_append {σ : Type} (step : ℕ → σ → Res σ) : ∀ (l₁ l₂ : List ℕ) (s : σ),
    resFold step (l₁ ++ l₂) s = (resFold step l₁ s).bind (resFold step l₂)
  | [], l₂, s => rfl
  | i :: l₁, l₂, s => by
    simp only [List.cons_append, resFold]
    cases step i s with
    | ok a => simp only [Res.bind]; rw [resFold_append step l₁ l₂ a]; rfl
    | throw e => rfl
    | ub => rfl
    | nonfinite => rfl

/-- Invariants of a loop that never ends abnormally. -/
theorem resFold_inv {σ : Type} (step : ℕ → σ → Res σ) (I : ℕ → σ → Prop) (s0 : σ) (h0 : I 0 s0) : ∀ T,
    (∀ t < T, ∀ s, I t s → ∃ s', step t s = .ok s' ∧ I (t + 1) s') → ∃ s, resFold step (List.range T) s0 = .ok s ∧ I T s
  | 0, _ => ⟨s0, rfl, h0⟩
  | T + 1, h => by
    obtain ⟨s, hs, hi⟩ := resFold_inv step I s0 h0 T fun t ht => h t (by omega)
    obtain ⟨s', hs', hi'⟩ := h T (by omega) s hi
    refine ⟨s', ?_, hi'⟩
    rw [List.range_succ, resFold_append, hs]
    simp only [Res.bind, resFold, hs']

theorem foldl_inv {σ : Type} (step : σ → ℕ → σ) (I : ℕ → σ → Prop) (s0 : σ) (h0 : I 0 s0) : ∀ T,
    (∀ t < T, ∀ s, I t s → I (t + 1) (step s t)) → I T ((List.range T).foldl step s0)
  | 0, _ => h0
  | T + 1, h => by
    rw [List.range_succ, List.foldl_append]
    exact h T (by omega) _ (foldl_inv step I s0 h0 T fun t ht => h t (by omega))

/-! ## Groups -/

theorem group_bounds {first second G i : ℕ} (hG : 0 < G) (hi : i < cudaGroups first second G) :
    groupBegin first G i < second ∧ 0 < groupLength second G (groupBegin first G i) ∧
    groupLength second G (groupBegin first G i) ≤ G ∧
    groupBegin first G i + groupLength second G (groupBegin first G i) = min (groupBegin first G (i + 1)) second := by
  have hb : groupBegin first G i < second := by
    unfold cudaGroups at hi
    unfold groupBegin
    have h := Nat.div_add_mod (second - first) G
    set r := second - first with hr
    have h2 : i * G < r := by
      split at hi
      · have : i + 1 ≤ r / G := by omega
        have h3 : (i + 1) * G ≤ r / G * G := Nat.mul_le_mul_right G this
        have h4 : r / G * G = G * (r / G) := Nat.mul_comm _ _
        have h5 : (i + 1) * G = i * G + G := by ring
        omega
      · have : i ≤ r / G := by omega
        have h3 : i * G ≤ r / G * G := Nat.mul_le_mul_right G this
        have h4 : r / G * G = G * (r / G) := Nat.mul_comm _ _
        omega
    omega
  have h1 : groupBegin first G (i + 1) = groupBegin first G i + G := by unfold groupBegin; ring
  unfold groupLength
  rw [h1]
  refine ⟨hb, ?_, ?_, ?_⟩ <;> split <;> omega

theorem groups_reach {first second G : ℕ} (hG : 0 < G) (h : first ≤ second) :
    min (groupBegin first G (cudaGroups first second G)) second = second := by
  unfold groupBegin cudaGroups
  have h1 := Nat.div_add_mod (second - first) G
  have h2 := Nat.mod_lt (second - first) hG
  have h4 : (second - first) / G * G = G * ((second - first) / G) := Nat.mul_comm _ _
  split
  · rw [Nat.add_zero]; omega
  · rw [Nat.add_mul]; omega

theorem workRange_append (n : ℕ) {a b c : ℕ} (hab : a ≤ b) (hbc : b ≤ c) : workRange n a b ++ workRange n b c = workRange n a c := by
  have hs : ∀ a b, (workRange n a b).Pairwise (· < ·) := fun a b => (List.pairwise_lt_finRange n).filter _
  refine List.Perm.eq_of_pairwise (le := (· < ·)) (fun a b _ _ h1 h2 => absurd h1 (lt_asymm h2)) ?_ (hs a c) ?_
  · rw [List.pairwise_append]
    refine ⟨hs a b, hs b c, fun i hi j hj => ?_⟩
    have h1 := mem_workRange.1 hi
    have h2 := mem_workRange.1 hj
    exact Fin.lt_def.2 (by omega)
  · rw [List.perm_ext_iff_of_nodup ?_ (nodup_workRange n a c)]
    · intro i
      rw [List.mem_append, mem_workRange, mem_workRange, mem_workRange]
      omega
    · rw [List.nodup_append]
      refine ⟨nodup_workRange n a b, nodup_workRange n b c, fun i hi j hj h => ?_⟩
      have h1 := mem_workRange.1 hi
      have h2 := mem_workRange.1 hj
      subst h
      omega

/-- **C33 (groups).** For every work range and every group length, the groups, taken in order, run through exactly the observations
of the range, each once; no group is empty or longer than the group length. -/
theorem C33_groups_cover_once (n first second G : ℕ) (hG : 0 < G) (hfs : first ≤ second) :
    ((List.range (cudaGroups first second G)).flatMap fun i =>
      let b := groupBegin first G i
      workRange n b (b + groupLength second G b)) = workRange n first second ∧
    ∀ i < cudaGroups first second G, 0 < groupLength second G (groupBegin first G i) ∧
      groupLength second G (groupBegin first G i) ≤ G ∧ groupBegin first G i + groupLength second G (groupBegin first G i) ≤ second := by
  refine ⟨?_, fun i hi => ?_⟩
  · have key : ∀ T ≤ cudaGroups first second G, ((List.range T).flatMap fun i =>
        workRange n (groupBegin first G i) (groupBegin first G i + groupLength second G (groupBegin first G i))) =
        workRange n first (min (groupBegin first G T) second) := by
      intro T
      induction T with
      | zero =>
        intro _
        have : min (groupBegin first G 0) second = first := by unfold groupBegin; omega
        rw [this]
        symm
        simp only [List.range_zero, List.flatMap_nil]
        unfold workRange
        rw [List.filter_eq_nil_iff]
        intro i _
        simp only [decide_eq_true_eq]
        omega
      | succ T ih =>
        intro hT
        obtain ⟨h1, h2, h3, h4⟩ := group_bounds (first := first) (second := second) (i := T) hG (by omega)
        rw [List.range_succ, List.flatMap_append, ih (by omega), List.flatMap_singleton, h4]
        have hm : min (groupBegin first G T) second = groupBegin first G T := by omega
        rw [hm]
        exact workRange_append n (by unfold groupBegin; omega) (by omega)
    have := key _ le_rfl
    rw [groups_reach hG hfs] at this
    exact this
  · obtain ⟨h1, h2, h3, h4⟩ := group_bounds (first := first) (second := second) (i := i) hG hi
    exact ⟨h2, h3, by omega⟩

example : ((List.range (cudaGroups 2 9 3)).map fun i => (groupBegin 2 3 i, groupLength 9 3 (groupBegin 2 3 i))) =
    [(2, 3), (5, 3), (8, 1)] := by decide

/-! ## The fit -/

theorem det_isUnit_of_posDef {x : Matrix (Fin n) (Fin k) ℝ} {w : Fin n → ℝ} (h : (xtwx x w).PosDef) : IsUnit (xtwx x w).det :=
  (Matrix.isUnit_iff_isUnit_det _).1 (Matrix.PosDef.isUnit h)

theorem slotFit_eq (x : Matrix (Fin n) (Fin k) ℝ) (y : Fin n → ℝ) (W : Fin n → Fin n → ℝ) (i : Fin n) :
    slotFit x y (W i) (x i) = fitAt x y W i := rfl

theorem loadGroup_in (W : Fin m → Fin n → ℝ) {b len : ℕ} (slots : ℕ → Fin n → ℝ) {e : Fin m} (h : e ∈ workRange m b (b + len)) :
    loadGroup W b len slots (e.val - b) = W e := by
  obtain ⟨h1, h2⟩ := mem_workRange.1 h
  unfold loadGroup
  rw [dif_pos ⟨by omega, by omega⟩]
  congr 1
  exact Fin.ext (by simp; omega)

/-- Every stride of the buffer holds the weights of some location once a full group has been loaded. -/
theorem loadGroup_full (W : Fin m → Fin n → ℝ) {b len G : ℕ} (slots : ℕ → Fin n → ℝ) (hb : b + len ≤ m)
    (h : len = G ∨ ∀ j < G, ∃ e, slots j = W e) : ∀ j < G, ∃ e, loadGroup W b len slots j = W e := by
  intro j hj
  unfold loadGroup
  split
  · exact ⟨_, rfl⟩
  · rename_i hn
    rcases h with rfl | h
    · exact absurd ⟨hj, by omega⟩ hn
    · exact h j hj

/-- **C33 (fit, partial).** With at least as many observations as the group length, the GPU fit gives exactly what the serial fit
gives: coefficients, standard error terms, traces, Q diagonal and the stored rows of S and slices of C. Missing: fewer observations
than the group length, where it fails (`C33_small_data_fails`). -/
theorem C33_fit_cuda_partial (x : Matrix (Fin n) (Fin k) ℝ) (y : Fin n → ℝ) (W : Fin n → Fin n → ℝ) (G : ℕ) (hG : 0 < G) (hn : G ≤ n)
    (sS sC : Bool) (a : FitAcc n k) (h : fitCoreSerial x y W 0 n sS sC NoStop = .ok (a, false)) :
    fitCoreCuda x y W 0 n G sS sC = .ok a := by
  obtain ⟨hpd, -⟩ := fitCoreSerial_ok h
  have hpd' : ∀ i : Fin n, (xtwx x (W i)).PosDef := fun i => hpd i (Nat.zero_le _) i.isLt
  have ha := serialFor_eq_fold _ _ _ _ h (fitAt x y W) (fun i _ => localFit_fitAt (hpd' i))
  unfold fitCoreCuda
  obtain ⟨s, hs, hI⟩ := resFold_inv (fun i (s : (ℕ → Fin n → ℝ) × FitAcc n k) =>
      let b := groupBegin 0 G i
      let len := groupLength n G b
      let slots := loadGroup W b len s.1
      if allInvertible x G slots then
        .ok (slots, (workRange n b (b + len)).foldl (fun a e => fitUpd 0 sS sC e (slotFit x y (slots (e.val - b)) (x e)) a) s.2)
      else .throw .runtime)
    (fun t s => (0 < t → ∀ j < G, ∃ e, s.1 j = W e) ∧
      s.2 = (workRange n 0 (min (groupBegin 0 G t) n)).foldl (fun a i => fitUpd 0 sS sC i (fitAt x y W i) a) FitAcc.zero)
    (fun _ => 0, FitAcc.zero) ⟨fun h => absurd h (by omega), by
      have : workRange n 0 (min (groupBegin 0 G 0) n) = [] := by
        unfold workRange
        rw [List.filter_eq_nil_iff]
        intro i _
        simp [groupBegin]
      rw [this]; rfl⟩
    (cudaGroups 0 n G) (by
      rintro t ht ⟨slots, acc⟩ ⟨hsl, hacc⟩
      obtain ⟨h1, h2, h3, h4⟩ := group_bounds (first := 0) (second := n) (i := t) hG ht
      set b := groupBegin 0 G t with hb
      set len := groupLength n G b with hlen
      have hfull := loadGroup_full W (b := b) (len := len) (G := G) slots (by omega) (by
        by_cases h0 : t = 0
        · left
          subst h0
          have : b = 0 := by rw [hb]; simp [groupBegin]
          rw [hlen, this]; unfold groupLength
          rw [if_neg (by omega)]
        · exact Or.inr (hsl (by omega)))
      have hinv : allInvertible x G (loadGroup W b len slots) := by
        intro j hj
        obtain ⟨e, he⟩ := hfull j hj
        rw [he]
        exact det_isUnit_of_posDef (hpd' e)
      refine ⟨(loadGroup W b len slots, (workRange n b (b + len)).foldl (fun a e => fitUpd 0 sS sC e (fitAt x y W e) a) acc), ?_, ?_, ?_⟩
      · simp only [← hb, ← hlen, if_pos hinv]
        congr 2
        refine fold_congr_mem _ _ _ _ fun a e he => ?_
        rw [loadGroup_in W slots he]
        rfl
      · intro _; exact hfull
      · simp only at hacc ⊢
        rw [hacc, ← List.foldl_append]
        have hm : min b n = b := by omega
        rw [hm, h4, workRange_append n (by omega) (by omega)])
  rw [hs]
  simp only [Res.bind, Res.ok.injEq]
  rw [hI.2, groups_reach hG (Nat.zero_le n), ha]

theorem xtwx_zero (x : Matrix (Fin n) (Fin k) ℝ) : xtwx x 0 = 0 := by
  ext a b
  rw [xtwx_apply]
  simp

/-- The last strides of a group that is shorter than the buffer are never written in the first group. -/
theorem not_invertible_first {x : Matrix (Fin n) (Fin k) ℝ} (hk : 0 < k) (W : Fin m → Fin n → ℝ) {b len G : ℕ} (h : len < G) :
    ¬ allInvertible x G (loadGroup W b len fun _ => 0) := by
  intro hi
  have hu := hi len h
  unfold loadGroup at hu
  rw [dif_neg (by omega)] at hu
  have h0 : xtwx x ((fun _ => 0 : ℕ → Fin n → ℝ) len) = 0 := xtwx_zero x
  haveI : Nonempty (Fin k) := ⟨⟨0, hk⟩⟩
  rw [h0, Matrix.det_zero] at hu
  exact not_isUnit_zero hu

/-- **C33 (disagreement).** A GPU fit of fewer observations than the group length (64 by default) always throws, whatever the data and
the bandwidth: the inversion is also checked in the strides that hold no observation. -/
theorem C33_small_data_fails (x : Matrix (Fin n) (Fin k) ℝ) (y : Fin n → ℝ) (W : Fin n → Fin n → ℝ) (G : ℕ) (hk : 0 < k) (hn : 0 < n)
    (hG : n < G) (sS sC : Bool) : fitCoreCuda x y W 0 n G sS sC = .throw .runtime := by
  have hg : cudaGroups 0 n G = 1 := by
    unfold cudaGroups
    rw [Nat.sub_zero, Nat.div_eq_of_lt hG, Nat.mod_eq_of_lt hG, if_neg (by omega)]
  have hl : groupLength n G 0 = n := by unfold groupLength; rw [if_pos (by omega)]; omega
  unfold fitCoreCuda
  rw [hg]
  simp only [List.range_one, resFold, groupBegin, Nat.zero_mul, Nat.add_zero, hl]
  rw [if_neg (not_invertible_first hk W hG)]
  rfl

/-- **C33 (disagreement).** In the same situation the GPU cross-validation does not fail but returns zero coefficients for every
bandwidth, so that every bandwidth scores the sum of squares of the response. -/
theorem C33_small_data_cv_zero (x : Matrix (Fin n) (Fin k) ℝ) (y : Fin n → ℝ) (W : Fin n → Fin n → ℝ) (G : ℕ) (hk : 0 < k) (hn : 0 < n)
    (hG : n < G) : fitCoreCVCuda x y W 0 n G = 0 ∧ rss x y (fitCoreCVCuda x y W 0 n G) = ∑ i, y i * y i := by
  have hg : cudaGroups 0 n G = 1 := by
    unfold cudaGroups
    rw [Nat.sub_zero, Nat.div_eq_of_lt hG, Nat.mod_eq_of_lt hG, if_neg (by omega)]
  have hl : groupLength n G 0 = n := by unfold groupLength; rw [if_pos (by omega)]; omega
  have h0 : fitCoreCVCuda x y W 0 n G = 0 := by
    unfold fitCoreCVCuda
    rw [hg]
    simp only [List.range_one, List.foldl_cons, List.foldl_nil, groupBegin, Nat.zero_mul, Nat.add_zero, hl]
    rw [if_neg (by simp), if_neg (not_invertible_first hk (cvWeight W) hG)]
  refine ⟨h0, ?_⟩
  rw [h0]
  unfold rss
  simp [fitted]

/-- **C33 (cross-validation, partial).** With at least as many observations as the group length the GPU cross-validation gives the
serial leave-one-out coefficients. -/
theorem C33_cv_cuda_partial (x : Matrix (Fin n) (Fin k) ℝ) (y : Fin n → ℝ) (W : Fin n → Fin n → ℝ) (G : ℕ) (hG : 0 < G) (hn : G ≤ n)
    (b : Matrix (Fin n) (Fin k) ℝ) (h : fitCoreCVSerial x y W 0 n NoStop = .ok (b, false)) : fitCoreCVCuda x y W 0 n G = b := by
  obtain ⟨hb1, -⟩ := betaLoop_ok (nodup_workRange n 0 n) h
  have hpd : ∀ i, (xtwx x (cvWeight W i)).PosDef ∧ b i = _ := fun i =>
    localBeta_eq_ok.1 (hb1 i (mem_workRange.2 ⟨Nat.zero_le _, i.isLt⟩))
  unfold fitCoreCVCuda
  have hI := foldl_inv (fun (s : QuietState n k) i =>
      if s.success = false then s else
      let b := groupBegin 0 G i
      let len := groupLength n G b
      let slots := loadGroup (cvWeight W) b len s.slots
      if allInvertible x G slots then
        { s with slots := slots
                 betas := (workRange n b (b + len)).foldl (fun bt e => setRow e (slotFit x y (slots (e.val - b)) (x e)).beta bt) s.betas }
      else { s with slots := slots, success := false })
    (fun t s => s.success = true ∧ (0 < t → ∀ j < G, ∃ e, s.slots j = cvWeight W e) ∧
      s.betas = (workRange n 0 (min (groupBegin 0 G t) n)).foldl (fun bt e => setRow e (b e) bt) 0)
    ⟨fun _ => 0, fun _ => 0, 0, 0, true⟩ ⟨rfl, fun h => absurd h (by omega), by
      have : workRange n 0 (min (groupBegin 0 G 0) n) = [] := by
        unfold workRange
        rw [List.filter_eq_nil_iff]
        intro i _
        simp [groupBegin]
      rw [this]; rfl⟩ (cudaGroups 0 n G) (by
      rintro t ht ⟨slots, sst, betas, shat, su⟩ ⟨hsu, hsl, hacc⟩
      simp only at hsu hsl hacc
      subst hsu
      obtain ⟨h1, h2, h3, h4⟩ := group_bounds (first := 0) (second := n) (i := t) hG ht
      set b0 := groupBegin 0 G t with hb
      set len := groupLength n G b0 with hlen
      have hfull := loadGroup_full (cvWeight W) (b := b0) (len := len) (G := G) slots (by omega) (by
        by_cases h0 : t = 0
        · left
          subst h0
          have : b0 = 0 := by rw [hb]; simp [groupBegin]
          rw [hlen, this]; unfold groupLength
          rw [if_neg (by omega)]
        · exact Or.inr (hsl (by omega)))
      have hinv : allInvertible x G (loadGroup (cvWeight W) b0 len slots) := by
        intro j hj
        obtain ⟨e, he⟩ := hfull j hj
        rw [he]
        exact det_isUnit_of_posDef (hpd e).1
      simp only [Bool.true_eq_false, if_false, ← hb, ← hlen, if_pos hinv]
      refine ⟨trivial, fun _ => hfull, ?_⟩
      rw [hacc]
      have e1 : (workRange n b0 (b0 + len)).foldl (fun bt e => setRow e (slotFit x y (loadGroup (cvWeight W) b0 len slots (e.val - b0)) (x e)).beta bt)
          ((workRange n 0 (min b0 n)).foldl (fun bt e => setRow e (b e) bt) 0) =
          (workRange n b0 (b0 + len)).foldl (fun bt e => setRow e (b e) bt)
          ((workRange n 0 (min b0 n)).foldl (fun bt e => setRow e (b e) bt) 0) := by
        refine fold_congr_mem _ _ _ _ fun a e he => ?_
        rw [loadGroup_in (cvWeight W) slots he, (hpd e).2]
        rfl
      rw [e1, ← List.foldl_append]
      have hm : min b0 n = b0 := by omega
      rw [hm, h4, workRange_append n (by omega) (by omega)])
  refine Eq.trans hI.2.2 ?_
  rw [groups_reach hG (Nat.zero_le n)]
  exact (serialFor_eq_fold _ _ _ _ h b hb1).symm

/-! ## Traces for the AICc -/

/-- The diagonal entry and the squared length of row `e` of the hat matrix. -/
noncomputable def rowTr (x : Matrix (Fin n) (Fin k) ℝ) (y : Fin n → ℝ) (W : Fin n → Fin n → ℝ) (e : Fin n) : ℝ := (fitAt x y W e).si e
noncomputable def rowSq (x : Matrix (Fin n) (Fin k) ℝ) (y : Fin n → ℝ) (W : Fin n → Fin n → ℝ) (e : Fin n) : ℝ :=
  ∑ l, (fitAt x y W e).si l * (fitAt x y W e).si l

/-- Observation `j` extended to all numbers. -/
noncomputable def rowSqN (x : Matrix (Fin n) (Fin k) ℝ) (y : Fin n → ℝ) (W : Fin n → Fin n → ℝ) (e : ℕ) : ℝ :=
  if h : e < n then rowSq x y W ⟨e, h⟩ else 0

theorem workRange_sum_nat (f : Fin n → ℝ) (b len : ℕ) (h : b + len ≤ n) :
    ((workRange n b (b + len)).map f).sum = ∑ j ∈ Finset.range len, if hj : b + j < n then f ⟨b + j, hj⟩ else 0 := by
  induction len with
  | zero =>
    have : workRange n b (b + 0) = [] := by
      unfold workRange
      rw [List.filter_eq_nil_iff]
      intro i _
      simp only [decide_eq_true_eq]
      omega
    rw [this]; simp
  | succ len ih =>
    rw [← Nat.add_assoc, ← workRange_append n (b := b + len) (by omega) (by omega), List.map_append, List.sum_append, ih (by omega),
      Finset.sum_range_succ, dif_pos (show b + len < n by omega)]
    congr 1
    have : workRange n (b + len) (b + len + 1) = [⟨b + len, by omega⟩] := by
      refine List.perm_singleton.1 ?_
      rw [List.perm_ext_iff_of_nodup (nodup_workRange _ _ _) (List.nodup_singleton _)]
      intro i
      rw [mem_workRange, List.mem_singleton, Fin.ext_iff]
      simp only
      omega
    rw [this]
    simp

/-- **C33 (traces of the AICc computation).** With at least as many observations as the group length, the GPU computation gives the
serial coefficients and the serial trace of S — hence the serial AICc. Its second number, the trace of S'S, exceeds the serial one by
the squared lengths of the rows of the last full group that the shorter last group did not overwrite. -/
theorem C33_shat_cuda (x : Matrix (Fin n) (Fin k) ℝ) (y : Fin n → ℝ) (W : Fin n → Fin n → ℝ) (G : ℕ) (hG : 0 < G) (hn : G ≤ n)
    (g : ℕ → ℝ) (b : Matrix (Fin n) (Fin k) ℝ) (shat : Fin 2 → ℝ) (h : fitCoreSHatSerial x y W 0 n NoStop = .ok ((b, shat), false)) :
    (fitCoreSHatCuda x y W 0 n G g).1 = b ∧ (fitCoreSHatCuda x y W 0 n G g).2 0 = shat 0 ∧
    (fitCoreSHatCuda x y W 0 n G g).2 1 = shat 1 +
      (if n % G = 0 then 0 else ∑ j ∈ Finset.range G, if n % G ≤ j then rowSqN x y W ((n / G - 1) * G + j) else 0) := by
  have hpd : ∀ i : Fin n, (xtwx x (W i)).PosDef := fun i => by
    obtain ⟨r, hr⟩ := serialFor_complete _ _ _ _ h i (mem_workRange.2 ⟨Nat.zero_le _, i.isLt⟩)
    exact (localFit_eq_ok.1 hr).1
  obtain ⟨b0, e0, hb0, -⟩ := shatLoop_ok (x := x) (y := y) (W := W) 0 n (fun i _ _ => hpd i)
  rw [e0] at h
  obtain ⟨⟨rfl, rfl⟩, -⟩ := by simpa only [Res.ok.injEq, Prod.mk.injEq] using h
  have hI := foldl_inv (fun (s : QuietState n k) i =>
      if s.success = false then s else
      let b := groupBegin 0 G i
      let len := groupLength n G b
      let slots := loadGroup W b len s.slots
      if allInvertible x G slots then
        let si : ℕ → Fin n → ℝ := fun j => if h : b + j < n then (slotFit x y (slots j) (x ⟨b + j, h⟩)).si else 0
        let sst : ℕ → ℝ := fun j => if j < len then ∑ l, si j l * si j l else s.sst j
        { slots := slots
          sst := sst
          betas := (workRange n b (b + len)).foldl (fun bt e => setRow e (slotFit x y (slots (e.val - b)) (x e)).beta bt) s.betas
          shat := ![s.shat 0 + ((workRange n b (b + len)).map fun e => si (e.val - b) e).sum,
                    s.shat 1 + ∑ j ∈ Finset.range G, sst j]
          success := true }
      else { s with slots := slots, success := false })
    (fun t s => s.success = true ∧ (0 < t → ∀ j < G, ∃ e, s.slots j = W e) ∧
      (0 < t → t ≤ n / G → ∀ j < G, s.sst j = rowSqN x y W ((t - 1) * G + j)) ∧
      s.betas = (workRange n 0 (min (groupBegin 0 G t) n)).foldl (fun bt e => setRow e (b0 e) bt) 0 ∧
      s.shat 0 = ((workRange n 0 (min (groupBegin 0 G t) n)).map (rowTr x y W)).sum ∧
      s.shat 1 = ((workRange n 0 (min (groupBegin 0 G t) n)).map (rowSq x y W)).sum +
        (if t ≤ n / G then 0 else ∑ j ∈ Finset.range G, if n % G ≤ j then rowSqN x y W ((n / G - 1) * G + j) else 0))
    ⟨fun _ => 0, g, 0, 0, true⟩ (by
      have : workRange n 0 (min (groupBegin 0 G 0) n) = [] := by
        unfold workRange
        rw [List.filter_eq_nil_iff]
        intro i _
        simp [groupBegin]
      rw [this]
      exact ⟨rfl, fun h => absurd h (by omega), fun h => absurd h (by omega), rfl, by simp, by simp⟩)
    (cudaGroups 0 n G) (by
      rintro t ht ⟨slots, sst, betas, sh, su⟩ ⟨hsu, hsl, hsst, hbet, hs0, hs1⟩
      simp only at hsu hsl hsst hbet hs0 hs1
      subst hsu
      obtain ⟨h1, h2, h3, h4⟩ := group_bounds (first := 0) (second := n) (i := t) hG ht
      have hbt : groupBegin 0 G t = t * G := by unfold groupBegin; omega
      have hdm := Nat.div_add_mod n G
      have hml := Nat.mod_lt n hG
      have hmc : n / G * G = G * (n / G) := Nat.mul_comm _ _
      have htn : t ≤ n / G := by
        by_contra hc
        have : (n / G + 1) * G ≤ t * G := Nat.mul_le_mul_right G (by omega)
        have : (n / G + 1) * G = n / G * G + G := by ring
        omega
      set b := groupBegin 0 G t with hb
      set len := groupLength n G b with hlen
      have hfull := loadGroup_full W (b := b) (len := len) (G := G) slots (by omega) (by
        by_cases h0 : t = 0
        · left
          subst h0
          have : b = 0 := by rw [hbt]; simp
          rw [hlen, this]; unfold groupLength
          rw [if_neg (by omega)]
        · exact Or.inr (hsl (by omega)))
      have hinv : allInvertible x G (loadGroup W b len slots) := by
        intro j hj
        obtain ⟨e, he⟩ := hfull j hj
        rw [he]
        exact det_isUnit_of_posDef (hpd e)
      have hsi : ∀ j < len, ∀ hj : b + j < n, (slotFit x y (loadGroup W b len slots j) (x ⟨b + j, hj⟩)).si = (fitAt x y W ⟨b + j, hj⟩).si := by
        intro j hj1 hj
        have := loadGroup_in W slots (b := b) (len := len) (e := ⟨b + j, hj⟩) (mem_workRange.2 ⟨by simp, by simp; omega⟩)
        rw [show (⟨b + j, hj⟩ : Fin n).val - b = j by simp] at this
        rw [this]; rfl
      have hsstv : ∀ j < len, (∑ l, (if h : b + j < n then (slotFit x y (loadGroup W b len slots j) (x ⟨b + j, h⟩)).si else 0) l *
          (if h : b + j < n then (slotFit x y (loadGroup W b len slots j) (x ⟨b + j, h⟩)).si else 0) l) = rowSqN x y W (b + j) := by
        intro j hj
        have hjn : b + j < n := by omega
        simp only [dif_pos hjn]
        rw [hsi j hj hjn]
        unfold rowSqN rowSq
        rw [dif_pos hjn]
      simp only [Bool.true_eq_false, if_false, ← hb, ← hlen, if_pos hinv]
      have hm : min b n = b := by omega
      refine ⟨trivial, fun _ => hfull, ?_, ?_, ?_, ?_⟩
      · intro _ htle j hj
        have hlG : len = G := by
          rw [hlen]; unfold groupLength
          have h7 : (t + 1) * G ≤ n / G * G := Nat.mul_le_mul_right G htle
          have h8 : (t + 1) * G = t * G + G := by ring
          rw [if_neg (by omega)]
        rw [if_pos (by omega), hsstv j (by omega), hbt, Nat.add_sub_cancel]
      · rw [hbet]
        have e1 : (workRange n b (b + len)).foldl (fun bt e => setRow e (slotFit x y (loadGroup W b len slots (e.val - b)) (x e)).beta bt)
            ((workRange n 0 (min b n)).foldl (fun bt e => setRow e (b0 e) bt) 0) =
            (workRange n b (b + len)).foldl (fun bt e => setRow e (b0 e) bt)
            ((workRange n 0 (min b n)).foldl (fun bt e => setRow e (b0 e) bt) 0) := by
          refine fold_congr_mem _ _ _ _ fun a e he => ?_
          rw [loadGroup_in W slots he, hb0 e (Nat.zero_le _) e.isLt]
          rfl
        rw [e1, ← List.foldl_append, hm, h4, workRange_append n (by omega) (by omega)]
      · simp only [Matrix.cons_val_zero]
        rw [hs0, hm, ← h4, ← workRange_append n (a := 0) (b := b) (c := b + len) (by omega) (by omega), List.map_append, List.sum_append]
        congr 2
        refine List.map_congr_left fun e he => ?_
        obtain ⟨q1, q2⟩ := mem_workRange.1 he
        have hq : b + (e.val - b) < n := by omega
        rw [dif_pos hq, hsi _ (by omega) hq]
        have : (⟨b + (e.val - b), hq⟩ : Fin n) = e := Fin.ext (by simp; omega)
        rw [this]
        rfl
      · simp only [Matrix.cons_val_one, Matrix.cons_val_fin_one]
        rw [hs1, if_pos htn, add_zero, hm, ← h4, ← workRange_append n (a := 0) (b := b) (c := b + len) (by omega) (by omega),
          List.map_append, List.sum_append, add_assoc]
        congr 1
        rw [workRange_sum_nat _ _ _ (by omega)]
        have hsplit : ∑ j ∈ Finset.range len, (if hj : b + j < n then rowSq x y W ⟨b + j, hj⟩ else 0) =
            ∑ j ∈ Finset.range G, if j < len then rowSqN x y W (b + j) else 0 := by
          rw [← Finset.sum_filter]
          have : (Finset.range G).filter (fun j => j < len) = Finset.range len := by
            ext j; simp only [Finset.mem_filter, Finset.mem_range]; omega
          rw [this]
          rfl
        rw [hsplit]
        by_cases htl : t + 1 ≤ n / G
        · have hlG : len = G := by
            rw [hlen]; unfold groupLength
            have h7 : (t + 1) * G ≤ n / G * G := Nat.mul_le_mul_right G htl
            have h8 : (t + 1) * G = t * G + G := by ring
            rw [if_neg (by omega)]
          rw [if_pos htl, add_zero]
          refine Finset.sum_congr rfl fun j hj => ?_
          have hj' := Finset.mem_range.1 hj
          rw [if_pos (by omega), if_pos (by omega), hsstv j (by omega)]
        · have htE : t = n / G := by omega
          have hlm : len = n % G := by
            rw [hlen]; unfold groupLength
            have hbE : b = n / G * G := by rw [hbt, htE]
            rw [if_pos (by omega)]
            omega
          rw [if_neg htl, ← Finset.sum_add_distrib]
          refine Finset.sum_congr rfl fun j hj => ?_
          have hj' := Finset.mem_range.1 hj
          by_cases hjl : j < len
          · rw [if_pos hjl, if_pos hjl, if_neg (by omega), hsstv j hjl, add_zero]
          · rw [if_neg hjl, if_neg hjl, if_pos (by omega), zero_add]
            have ht0 : 0 < t := by
              rw [htE]; exact Nat.div_pos hn hG
            rw [hsst ht0 (by omega) j hj', htE])
  have hreach := groups_reach (first := 0) (second := n) hG (Nat.zero_le n)
  obtain ⟨-, -, -, hbet, hs0, hs1⟩ := hI
  rw [hreach] at hbet hs0 hs1
  refine ⟨?_, ?_, ?_⟩
  · refine Eq.trans hbet ?_
    funext e
    have hid : ((workRange n 0 n).map fun i => i).Nodup := by simpa using nodup_workRange n 0 n
    exact foldl_update (fun i => i) b0 _ _ hid e (mem_workRange.2 ⟨Nat.zero_le _, e.isLt⟩)
  · refine Eq.trans hs0 ?_
    rw [sum_workRange, sum_workRange, Finset.sum_apply]
    exact Finset.sum_congr rfl fun e _ => rfl
  · refine Eq.trans hs1 ?_
    rw [sum_workRange, sum_workRange, Finset.sum_apply]
    congr 1
    unfold cudaGroups
    rw [Nat.sub_zero]
    by_cases hz : n % G = 0
    · rw [if_pos (by rw [if_pos hz]; omega), if_pos hz]
    · rw [if_neg (by rw [if_neg hz]; omega), if_neg hz]

/-- Rows of the hat matrix do not vanish. -/
theorem rowSq_pos {x : Matrix (Fin n) (Fin k) ℝ} {y : Fin n → ℝ} {W : Fin n → Fin n → ℝ} {e : Fin n} (h : (xtwx x (W e)).PosDef)
    (hx : x e ≠ 0) : 0 < rowSq x y W e := by
  have hnn : 0 ≤ rowSq x y W e := Finset.sum_nonneg fun l _ => mul_self_nonneg _
  refine lt_of_le_of_ne hnn fun h0 => hx ?_
  have hz : (fitAt x y W e).si = 0 := by
    funext l
    have := (Finset.sum_eq_zero_iff_of_nonneg fun l _ => mul_self_nonneg ((fitAt x y W e).si l)).1 h0.symm l (Finset.mem_univ l)
    exact mul_self_eq_zero.1 this
  have h1 : (fitAt x y W e).si ᵥ* x = x e := by
    show (x e ᵥ* ((xtwx x (W e))⁻¹ * xtw x (W e))) ᵥ* x = x e
    rw [Matrix.vecMul_vecMul, ci_mul_x h, Matrix.vecMul_one]
  rw [← h1, hz, Matrix.zero_vecMul]

/-- **C33 (disagreement).** "The accumulated traces equal the serial ones for every group length" is false for the trace of S'S in the
AICc computation: three observations in groups of two. -/
theorem C33_stale_trace (y : Fin 3 → ℝ) (g : ℕ → ℝ) (b : Matrix (Fin 3) (Fin 2) ℝ) (shat : Fin 2 → ℝ)
    (h : fitCoreSHatSerial exX y exW 0 3 NoStop = .ok ((b, shat), false)) : shat 1 < (fitCoreSHatCuda exX y exW 0 3 2 g).2 1 := by
  rw [(C33_shat_cuda exX y exW 2 (by norm_num) (by norm_num) g b shat h).2.2]
  have hp : (xtwx exX (exW 1)).PosDef :=
    (gram_posDef_iff_determined exX (exW 1) fun l => (exW_pos 1 l).le).2 (exX_determined _ (exW_pos 1))
  have hpos := rowSq_pos (y := y) (W := exW) (e := 1) hp (fun h => by have := congrFun h 0; simp [exX] at this)
  rw [if_neg (by norm_num)]
  simp only [Finset.sum_range_succ, Finset.sum_range_zero]
  norm_num
  unfold rowSqN
  simpa using hpos

/-- Such a computation exists. -/
example (y : Fin 3 → ℝ) : ∃ b shat, fitCoreSHatSerial exX y exW 0 3 NoStop = .ok ((b, shat), false) := by
  obtain ⟨b, e, -, -⟩ := shatLoop_ok (x := exX) (y := y) (W := exW) 0 3 fun i _ _ =>
    (gram_posDef_iff_determined exX (exW i) fun l => (exW_pos i l).le).2 (exX_determined _ (exW_pos i))
  exact ⟨b, _, e⟩

/-- A GPU fit of three observations in groups of two and of three. -/
example (y : Fin 3 → ℝ) (sS sC : Bool) : ∃ a, fitCoreCuda exX y exW 0 3 2 sS sC = .ok a ∧ fitCoreCuda exX y exW 0 3 3 sS sC = .ok a ∧
    fitCoreCuda exX y exW 0 3 64 sS sC = .throw .runtime := by
  obtain ⟨a, ha⟩ := ex_fit y sS sC
  exact ⟨a, C33_fit_cuda_partial _ _ _ 2 (by norm_num) (by norm_num) _ _ a ha,
    C33_fit_cuda_partial _ _ _ 3 (by norm_num) (by norm_num) _ _ a ha,
    C33_small_data_fails _ _ _ 64 (by norm_num) (by norm_num) (by norm_num) _ _⟩

/-! ## Failing fits -/

theorem resFold_throw {σ : Type} (step : ℕ → σ → Res σ) (e : Err) (hstep : ∀ t s, (∃ s', step t s = .ok s') ∨ step t s = .throw e) :
    ∀ (l : List ℕ) (s : σ), (∃ t ∈ l, ∀ s, step t s = .throw e) → resFold step l s = .throw e
  | [], s, h => by simp at h
  | i :: l, s, h => by
    simp only [resFold]
    rcases hstep i s with ⟨s', hs⟩ | hs
    · rw [hs]
      simp only [Res.bind]
      refine resFold_throw step e hstep l s' ?_
      obtain ⟨t, ht, h⟩ := h
      rcases List.mem_cons.1 ht with rfl | ht
      · rw [h s] at hs; cases hs
      · exact ⟨t, ht, h⟩
    · rw [hs]; rfl

/-- The group an observation belongs to. -/
theorem group_of {G : ℕ} (hG : 0 < G) (i : Fin n) : ∃ t ∈ List.range (cudaGroups 0 n G),
    i ∈ workRange n (groupBegin 0 G t) (groupBegin 0 G t + groupLength n G (groupBegin 0 G t)) := by
  have h := (C33_groups_cover_once n 0 n G hG (Nat.zero_le n)).1
  have hi : i ∈ workRange n 0 n := mem_workRange.2 ⟨Nat.zero_le _, i.isLt⟩
  rw [← h, List.mem_flatMap] at hi
  exact hi

theorem gram_posSemidef (x : Matrix (Fin n) (Fin k) ℝ) (w : Fin n → ℝ) (hw : ∀ l, 0 ≤ w l) (hd : IsUnit (xtwx x w).det) :
    (xtwx x w).PosDef := by
  rw [gram_posDef_iff_determined x w hw]
  intro b hb
  by_contra hne
  have hz : xtwx x w *ᵥ b = 0 := by
    rw [xtwx_mulVec]
    funext a
    simp only [xtw, Matrix.mulVec, dotProduct, Pi.zero_apply]
    refine Finset.sum_eq_zero fun l _ => ?_
    rcases (hw l).lt_or_eq with h | h
    · have := hb l h
      rw [this, mul_zero]
    · simp [Matrix.mul_diagonal, ← h]
  have := Matrix.eq_zero_of_mulVec_eq_zero (isUnit_iff_ne_zero.1 hd) hz
  exact hne this

/-- **C33 (failures are reported).** With non-negative weights, if at some location the observations of positive weight do not
determine the coefficients, then the GPU fit throws, as the serial one does, whatever the group length. -/
theorem C33_singular_reported (x : Matrix (Fin n) (Fin k) ℝ) (y : Fin n → ℝ) (W : Fin n → Fin n → ℝ) (hW : ∀ i l, 0 ≤ W i l)
    (G : ℕ) (hG : 0 < G) (sS sC : Bool) (h : ∃ i, ¬ Determined x (W i)) : fitCoreCuda x y W 0 n G sS sC = .throw .runtime := by
  obtain ⟨i, hi⟩ := h
  obtain ⟨t, ht, hm⟩ := group_of hG i
  have hb := group_bounds (first := 0) (second := n) hG (List.mem_range.1 ht)
  unfold fitCoreCuda
  rw [resFold_throw _ .runtime ?_ _ _ ⟨t, ht, ?_⟩]
  · rfl
  · intro t s
    simp only
    split
    · exact Or.inl ⟨_, rfl⟩
    · exact Or.inr rfl
  · intro s
    simp only
    rw [if_neg]
    intro hinv
    have h1 := mem_workRange.1 hm
    have h2 := hinv (i.val - groupBegin 0 G t) (by omega)
    rw [loadGroup_in W s.1 hm] at h2
    exact hi ((gram_posDef_iff_determined x (W i) (hW i)).1 (gram_posSemidef x (W i) (hW i) h2))

/-! ## Prediction -/

/-- **C33 (prediction, partial).** At exactly as many locations as there are data points, and at least as many as the group length,
the GPU prediction is the serial one. Missing: any other number of locations (`C33_predict_other_count_fails`). -/
theorem C33_predict_cuda_partial (x : Matrix (Fin n) (Fin k) ℝ) (y : Fin n → ℝ) (W : Fin n → Fin n → ℝ) (G : ℕ) (hG : 0 < G)
    (hn : G ≤ n) (b : Matrix (Fin n) (Fin k) ℝ) (h : predictSerial x y W NoStop = .ok (b, false)) :
    predictCuda x y W 0 n G = .ok b := by
  obtain ⟨hb1, -⟩ := betaLoop_ok (List.nodup_finRange n) h
  have hpd : ∀ i, (xtwx x (W i)).PosDef ∧ b i = _ := fun i => localBeta_eq_ok.1 (hb1 i (List.mem_finRange i))
  unfold predictCuda
  obtain ⟨s, hs, hI⟩ := resFold_inv (fun i (s : (ℕ → Fin n → ℝ) × Matrix (Fin n) (Fin k) ℝ) =>
      let b := groupBegin 0 G i
      let len := groupLength n G b
      if n < n then .ub else if n < b + len then .throw .runtime else
      let slots := loadGroup W b len s.1
      if allInvertible x G slots then
        .ok (slots, (workRange n b (b + len)).foldl
          (fun bt e => setRow e ((xtwx x (slots (e.val - b)))⁻¹ *ᵥ (xtw x (slots (e.val - b)) *ᵥ y)) bt) s.2)
      else .throw .runtime)
    (fun t s => (0 < t → ∀ j < G, ∃ e, s.1 j = W e) ∧
      s.2 = (workRange n 0 (min (groupBegin 0 G t) n)).foldl (fun bt e => setRow e (b e) bt) 0)
    (fun _ => 0, 0) ⟨fun h => absurd h (by omega), by
      have : workRange n 0 (min (groupBegin 0 G 0) n) = [] := by
        unfold workRange
        rw [List.filter_eq_nil_iff]
        intro i _
        simp [groupBegin]
      rw [this]; rfl⟩
    (cudaGroups 0 n G) (by
      rintro t ht ⟨slots, acc⟩ ⟨hsl, hacc⟩
      simp only at hsl hacc
      obtain ⟨h1, h2, h3, h4⟩ := group_bounds (first := 0) (second := n) (i := t) hG ht
      set b0 := groupBegin 0 G t with hb
      set len := groupLength n G b0 with hlen
      have hfull := loadGroup_full W (b := b0) (len := len) (G := G) slots (by omega) (by
        by_cases h0 : t = 0
        · left
          subst h0
          have : b0 = 0 := by rw [hb]; simp [groupBegin]
          rw [hlen, this]; unfold groupLength
          rw [if_neg (by omega)]
        · exact Or.inr (hsl (by omega)))
      have hinv : allInvertible x G (loadGroup W b0 len slots) := by
        intro j hj
        obtain ⟨e, he⟩ := hfull j hj
        rw [he]
        exact det_isUnit_of_posDef (hpd e).1
      refine ⟨(loadGroup W b0 len slots, (workRange n b0 (b0 + len)).foldl (fun bt e => setRow e (b e) bt) acc), ?_, ?_, ?_⟩
      · simp only [← hlen]
        rw [if_neg (lt_irrefl n), if_neg (by omega), if_pos hinv]
        congr 2
        refine fold_congr_mem _ _ _ _ fun a e he => ?_
        rw [loadGroup_in W slots he, (hpd e).2]
      · intro _; exact hfull
      · simp only
        rw [hacc, ← List.foldl_append]
        have hm : min b0 n = b0 := by omega
        rw [hm, h4, workRange_append n (by omega) (by omega)])
  rw [hs]
  simp only [Res.bind, Res.ok.injEq]
  rw [hI.2, groups_reach hG (Nat.zero_le n), workRange_all]
  exact (serialFor_eq_fold _ _ _ _ h b hb1).symm

/-- **C33 (disagreement).** On the GPU, a prediction at a number of locations that differs from the number of data points never
returns a result: with fewer locations it throws, with more it writes out of bounds. -/
theorem C33_predict_other_count_fails (x : Matrix (Fin n) (Fin k) ℝ) (y : Fin n → ℝ) (W : Fin m → Fin n → ℝ) (G : ℕ) (hG : 0 < G)
    (hn : 0 < n) : (m < n → predictCuda x y W 0 n G = .throw .runtime) ∧ (n < m → predictCuda x y W 0 n G = .ub) := by
  obtain ⟨t, ht, hm⟩ := group_of hG (⟨n - 1, by omega⟩ : Fin n)
  have h1 := mem_workRange.1 hm
  constructor
  · intro hmn
    unfold predictCuda
    rw [resFold_throw _ .runtime ?_ _ _ ⟨t, ht, ?_⟩]
    · rfl
    · intro t s
      simp only
      rw [if_neg (by omega)]
      split
      · exact Or.inr rfl
      · split
        · exact Or.inl ⟨_, rfl⟩
        · exact Or.inr rfl
    · intro s
      simp only at h1 ⊢
      rw [if_neg (by omega), if_pos (by omega)]
  · intro hmn
    unfold predictCuda
    have hne : List.range (cudaGroups 0 n G) ≠ [] := fun h => by rw [h] at ht; simp at ht
    obtain ⟨a, l, hal⟩ := List.exists_cons_of_ne_nil hne
    rw [hal]
    simp only [resFold, if_pos hmn]
    rfl

/-- **C33 (disagreement).** A distance object that has been used on the GPU goes on measuring from the points of its first use after
it has been given other points: a GPU prediction after a GPU fit measures from the data points. -/
theorem C33_stale_device_points {α : Type} (d : DevDistance α) (hd : d.prepared = false) (fp dp fp' dp' : α) :
    ∃ d₁ d₂, (d.makeParameter fp dp).prepareCuda = .ok d₁ ∧ (d₁.makeParameter fp' dp').prepareCuda = .ok d₂ ∧
      d₂.param = some (fp', dp') ∧ d₂.devicePoints = .ok (fp, dp) := by
  refine ⟨_, _, by simp [DevDistance.makeParameter, DevDistance.prepareCuda, hd]; rfl, by
    simp [DevDistance.makeParameter, DevDistance.prepareCuda]; rfl, rfl, ?_⟩
  simp [DevDistance.devicePoints]

end Verif.Props

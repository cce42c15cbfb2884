import Verif.Spec.MultiscaleMpi
import Verif.Props.Mpi
import Verif.Props.GWRMultiscale
import Verif.Props.GWRGeneralized
import Verif.Props.GWRDefinition

/-! # C133: a multiscale fit distributed over processes -/

namespace Verif.Props
open Verif Verif.Model Verif.Spec Matrix Classical

variable {n k p : ℕ}

theorem sameOutcome_bind {α β γ δ : Type} {R : α → β → Prop} {Q : γ → δ → Prop} {a : Res α} {b : Res β} {f : α → Res γ} {g : β → Res δ}
    (h : SameOutcome R a b) (hf : ∀ x y, R x y → SameOutcome Q (f x) (g y)) : SameOutcome Q (a.bind f) (b.bind g) := by
  cases a <;> cases b <;> simp only [SameOutcome] at h <;> simp only [Res.bind, SameOutcome]
  · exact hf _ _ h
  · exact h

theorem sameOutcome_ok {α β : Type} {R : α → β → Prop} {a : α} {b : β} (h : R a b) : SameOutcome R (.ok a) (.ok b) := h

/-! ## Coefficients -/

theorem combined_cut (p : ℕ) (beta : Fin n → ℝ) (i : Fin n) : allreduceMax p (partVec (p + 1) beta) i = cutOf p (beta i) := by
  cases p with
  | zero => rw [(C31_combined (p := 0) beta i).1]; simp [cutOf]
  | succ p => rw [(C31_combined (p := p) beta i).2]; simp [cutOf]

/-- The fold of the loop body over distinct locations of the range that starts at `first`. -/
theorem blockFold (first : ℕ) (g : Fin n → Res (LocalFit n 1)) : ∀ (l : List (Fin n)) (a : VarBlock n), l.Nodup → (∀ i ∈ l, first ≤ i.val) →
    ((l.foldl (fun s i => varBlockUpd first i (g i) s) a).success = true ↔ a.success = true ∧ ∀ i ∈ l, ∃ lf, g i = .ok lf) ∧
    ∀ j, first ≤ j.val → (j ∉ l → (l.foldl (fun s i => varBlockUpd first i (g i) s) a).beta j = a.beta j ∧
        (l.foldl (fun s i => varBlockUpd first i (g i) s) a).S (j.val - first) = a.S (j.val - first)) ∧
      (j ∈ l → ∀ lf, g j = .ok lf → (l.foldl (fun s i => varBlockUpd first i (g i) s) a).beta j = lf.beta 0 ∧
        (l.foldl (fun s i => varBlockUpd first i (g i) s) a).S (j.val - first) = lf.si)
  | [], a, _, _ => by simp
  | i :: l, a, hnd, hge => by
    rw [List.nodup_cons] at hnd
    have hi := hge i List.mem_cons_self
    obtain ⟨h1, h2⟩ := blockFold first g l (varBlockUpd first i (g i) a) hnd.2 (fun j hj => hge j (List.mem_cons_of_mem _ hj))
    simp only [List.foldl_cons]
    refine ⟨?_, fun j hfj => ⟨fun hj => ?_, fun hj lf hlf => ?_⟩⟩
    · rw [h1]
      cases hg : g i <;> simp [varBlockUpd, hg]
    · rw [List.mem_cons, not_or] at hj
      obtain ⟨e1, e2⟩ := (h2 j hfj).1 hj.2
      rw [e1, e2]
      cases hg : g i <;> simp only [varBlockUpd, and_self]
      have hne : j.val - first ≠ i.val - first := fun h => hj.1 (Fin.ext (by omega))
      exact ⟨Function.update_of_ne hj.1 _ _, Function.update_of_ne hne _ _⟩
    · by_cases hjl : j ∈ l
      · exact (h2 j hfj).2 hjl lf hlf
      · have : j = i := (List.mem_cons.1 hj).resolve_right hjl
        subst this
        obtain ⟨e1, e2⟩ := (h2 j hfj).1 hjl
        rw [e1, e2, hlf]
        exact ⟨by simp [varBlockUpd], by simp [varBlockUpd]⟩

theorem blockFold_out (first : ℕ) (g : Fin n → Res (LocalFit n 1)) (j : Fin n) : ∀ (l : List (Fin n)) (a : VarBlock n), j ∉ l →
    (l.foldl (fun s i => varBlockUpd first i (g i) s) a).beta j = a.beta j
  | [], _, _ => rfl
  | i :: l, a, h => by
    rw [List.mem_cons, not_or] at h
    rw [List.foldl_cons, blockFold_out first g j l _ h.2]
    cases g i <;> simp only [varBlockUpd]
    exact Function.update_of_ne h.1 _ _

/-- The fit of one variable on a work range. -/
theorem fitVarBlock_eq (x : Matrix (Fin n) (Fin 1) ℝ) (y : Fin n → ℝ) (W : Fin n → Fin n → ℝ) (q : Fin (p + 1)) :
    ((∀ i : Fin n, mpiFrom n (p + 1) q ≤ i.val → i.val < mpiTo n (p + 1) q → (xtwx x (W i)).PosDef) →
      ∃ S, fitVarBlock x y W (mpiFrom n (p + 1) q) (mpiTo n (p + 1) q) =
          .ok (partVec (p + 1) (fun i => (fitAt x y W i).beta 0) q, S) ∧
        ∀ i : Fin n, mpiFrom n (p + 1) q ≤ i.val → i.val < mpiTo n (p + 1) q → S (i.val - mpiFrom n (p + 1) q) = (fitAt x y W i).si) ∧
    ((∃ i : Fin n, mpiFrom n (p + 1) q ≤ i.val ∧ i.val < mpiTo n (p + 1) q ∧ ¬ (xtwx x (W i)).PosDef) →
      fitVarBlock x y W (mpiFrom n (p + 1) q) (mpiTo n (p + 1) q) = .throw .runtime) := by
  set f := mpiFrom n (p + 1) q
  set t := mpiTo n (p + 1) q
  obtain ⟨h1, h2⟩ := blockFold f (fun i => localFit x y (W i) (x i)) (workRange n f t) ⟨0, fun _ => 0, true⟩ (nodup_workRange n f t)
    (fun i hi => (mem_workRange.1 hi).1)
  constructor
  · intro hp
    have hs := h1.2 ⟨rfl, fun i hi => ⟨_, localFit_fitAt (hp i (mem_workRange.1 hi).1 (mem_workRange.1 hi).2)⟩⟩
    refine ⟨_, ?_, fun i ha hb => ((h2 i ha).2 (mem_workRange.2 ⟨ha, hb⟩) _ (localFit_fitAt (hp i ha hb))).2⟩
    unfold fitVarBlock
    simp only [hs, if_true, Res.ok.injEq, Prod.mk.injEq, and_true]
    funext i
    unfold partVec
    by_cases hi : f ≤ i.val ∧ i.val < t
    · rw [if_pos hi]
      exact ((h2 i hi.1).2 (mem_workRange.2 hi) _ (localFit_fitAt (hp i hi.1 hi.2))).1
    · rw [if_neg hi]
      exact blockFold_out f _ i _ _ fun h => hi (mem_workRange.1 h)
  · rintro ⟨i, ha, hb, hn⟩
    unfold fitVarBlock
    simp only
    rw [if_neg]
    intro hs
    obtain ⟨lf, hl⟩ := (h1.1 hs).2 i (mem_workRange.2 ⟨ha, hb⟩)
    exact hn (localFit_eq_ok.1 hl).1

/-- The fits of one variable in all processes: the whole fit, distributed, or the failure of the whole fit. -/
theorem fitVarBlocks (x : Matrix (Fin n) (Fin 1) ℝ) (y : Fin n → ℝ) (W : Fin n → Fin n → ℝ) :
    SameOutcome (fun (r : Fin (p + 1) → (Fin n → ℝ) × (ℕ → Fin n → ℝ)) (r' : (Fin n → ℝ) × Matrix (Fin n) (Fin n) ℝ) =>
        (∀ i, allreduceMax p (fun q => (r q).1) i = cutOf p (r'.1 i)) ∧
        ∀ (q : Fin (p + 1)) (i : Fin n), mpiFrom n (p + 1) q ≤ i.val → i.val < mpiTo n (p + 1) q →
          (r q).2 (i.val - mpiFrom n (p + 1) q) = r'.2 i)
      (Res.tabulate (p + 1) fun q => fitVarBlock x y W (mpiFrom n (p + 1) q) (mpiTo n (p + 1) q))
      (fitVarCoreSerial x y W fun _ => false) := by
  rw [fitVarSerial_eq x y W (fun _ => rfl)]
  by_cases hp : ∀ i, (xtwx x (W i)).PosDef
  · rw [if_pos hp]
    choose S hS hrow using fun q : Fin (p + 1) => (fitVarBlock_eq x y W q).1 fun i _ _ => hp i
    rw [tab_ok _ hS]
    exact sameOutcome_ok ⟨fun i => combined_cut p _ i, fun q i ha hb => hrow q i ha hb⟩
  · rw [if_neg hp]
    push Not at hp
    obtain ⟨i, hi⟩ := hp
    have ho := (mem_owner (p := p) i (ownerOf p i)).2 rfl
    rw [tabulate_fail (e := .runtime) (fun q => ?_) ⟨ownerOf p i, (fitVarBlock_eq x y W _).2 ⟨i, ho.1, ho.2, hi⟩⟩]
    · rfl
    · by_cases h : ∀ i : Fin n, mpiFrom n (p + 1) q ≤ i.val → i.val < mpiTo n (p + 1) q → (xtwx x (W i)).PosDef
      · obtain ⟨S, hS, -⟩ := (fitVarBlock_eq x y W q).1 h
        exact Or.inl ⟨_, hS⟩
      · push Not at h
        obtain ⟨j, a, b, c⟩ := h
        exact Or.inr ((fitVarBlock_eq x y W q).2 ⟨j, a, b, c⟩)

/-! ## The criterion -/

theorem cvLoop_cases (x : Matrix (Fin n) (Fin k) ℝ) (y : Fin n → ℝ) (W : Fin n → Fin n → ℝ) (f s : ℕ) :
    ((∀ i : Fin n, f ≤ i.val → i.val < s → (xtwx x (cvWeight W i)).PosDef) → ∃ b, fitCoreCVSerial x y W f s NoStop = .ok (b, false) ∧
      ∀ i : Fin n, b i = if f ≤ i.val ∧ i.val < s then (xtwx x (cvWeight W i))⁻¹ *ᵥ (xtw x (cvWeight W i) *ᵥ y) else 0) ∧
    ((∃ i : Fin n, f ≤ i.val ∧ i.val < s ∧ ¬ (xtwx x (cvWeight W i)).PosDef) → fitCoreCVSerial x y W f s NoStop = .throw .singular) := by
  constructor
  · intro h
    have e : fitCoreCVSerial x y W f s NoStop = _ := serialFor_ok (fun i => (xtwx x (cvWeight W i))⁻¹ *ᵥ (xtw x (cvWeight W i) *ᵥ y)) _ 0 _
      (fun _ _ => rfl) (fun i hi => localBeta_eq_ok.2 ⟨h i (mem_workRange.1 hi).1 (mem_workRange.1 hi).2, rfl⟩)
    refine ⟨_, e, fun i => ?_⟩
    obtain ⟨c1, c2⟩ := betaLoop_ok (nodup_workRange n _ _) e
    by_cases hi : f ≤ i.val ∧ i.val < s
    · rw [if_pos hi]
      exact (localBeta_eq_ok.1 (c1 i (mem_workRange.2 hi))).2
    · rw [if_neg hi]
      exact c2 i fun hm => hi (mem_workRange.1 hm)
  · rintro ⟨i, ha, hb, hn⟩
    refine serialFor_fail (fun i => localBeta_cases _ _ _) _ _ _ (fun _ _ => rfl) ⟨i, mem_workRange.2 ⟨ha, hb⟩, ?_⟩
    rcases localBeta_cases x y (cvWeight W i) with ⟨b, h⟩ | h
    · exact absurd (localBeta_eq_ok.1 h).1 hn
    · exact h

theorem shatLoop_fail (x : Matrix (Fin n) (Fin k) ℝ) (y : Fin n → ℝ) (W : Fin n → Fin n → ℝ) (f s : ℕ)
    (h : ∃ i : Fin n, f ≤ i.val ∧ i.val < s ∧ ¬ (xtwx x (W i)).PosDef) : fitCoreSHatSerial x y W f s NoStop = .throw .singular := by
  obtain ⟨i, ha, hb, hn⟩ := h
  refine serialFor_fail (fun i => localFit_cases _ _ _ _) _ _ _ (fun _ _ => rfl) ⟨i, mem_workRange.2 ⟨ha, hb⟩, ?_⟩
  rcases localFit_cases x y (W i) (x i) with ⟨b, h⟩ | h
  · exact absurd (localFit_eq_ok.1 h).1 hn
  · exact h

theorem tabulate_singular {α : Type} {f : Fin (p + 1) → Res α} {Q : Fin n → Prop}
    (hok : ∀ q : Fin (p + 1), (∀ i : Fin n, mpiFrom n (p + 1) q ≤ i.val → i.val < mpiTo n (p + 1) q → Q i) → ∃ a, f q = .ok a)
    (hbad : ∀ q : Fin (p + 1), (∃ i : Fin n, mpiFrom n (p + 1) q ≤ i.val ∧ i.val < mpiTo n (p + 1) q ∧ ¬ Q i) → f q = .throw .singular)
    {i : Fin n} (hi : ¬ Q i) : Res.tabulate (p + 1) f = .throw .singular := by
  have ho := (mem_owner (p := p) i (ownerOf p i)).2 rfl
  refine tabulate_fail (fun q => ?_) ⟨ownerOf p i, hbad _ ⟨i, ho.1, ho.2, hi⟩⟩
  by_cases h : ∀ i : Fin n, mpiFrom n (p + 1) q ≤ i.val → i.val < mpiTo n (p + 1) q → Q i
  · exact Or.inl (hok q h)
  · push Not at h
    obtain ⟨j, a, b, c⟩ := h
    exact Or.inr (hbad q ⟨j, a, b, c⟩)

/-- The distributed criterion is that of a single process with the coefficients cut. -/
theorem criterion_cut (p : ℕ) (cr : Crit) (x : Matrix (Fin n) (Fin 1) ℝ) (y : Fin n → ℝ) (rows : Res (Fin n → Fin n → ℝ)) :
    varCriterionMpi p cr x y rows = cutCriterion (cutOf p) cr x y rows := by
  cases rows with
  | ok W =>
    cases cr with
    | CV =>
      simp only [varCriterionMpi, cutCriterion]
      by_cases hp : ∀ i, (xtwx x (cvWeight W i)).PosDef
      · choose b hb hv using fun q : Fin (p + 1) => (cvLoop_cases x y W (mpiFrom n (p + 1) q) (mpiTo n (p + 1) q)).1 fun i _ _ => hp i
        obtain ⟨b0, h0, hv0⟩ := (cvLoop_cases x y W 0 n).1 fun i _ _ => hp i
        rw [tab_ok _ hb, h0]
        simp only
        congr 2
        ext i j
        rw [Subsingleton.elim j 0]
        simp only [of_apply]
        rw [hv0 i, if_pos ⟨Nat.zero_le _, i.isLt⟩, ← combined_cut p (fun i => ((xtwx x (cvWeight W i))⁻¹ *ᵥ (xtw x (cvWeight W i) *ᵥ y)) 0) i]
        congr 1
        funext q l
        rw [hv q l]
        unfold partVec
        split <;> rfl
      · push Not at hp
        obtain ⟨i, hi⟩ := hp
        rw [tabulate_singular (Q := fun i => (xtwx x (cvWeight W i)).PosDef)
          (fun q h => by obtain ⟨b, hb, -⟩ := (cvLoop_cases x y W _ _).1 h; exact ⟨_, hb⟩)
          (fun q h => (cvLoop_cases x y W _ _).2 h) hi,
          (cvLoop_cases x y W 0 n).2 ⟨i, Nat.zero_le _, i.isLt, hi⟩]
    | AIC =>
      simp only [varCriterionMpi, cutCriterion]
      by_cases hp : ∀ i, (xtwx x (W i)).PosDef
      · choose b hb hv hv' using fun q : Fin (p + 1) => shatLoop_ok (y := y) (mpiFrom n (p + 1) q) (mpiTo n (p + 1) q) fun i _ _ => hp i
        obtain ⟨b0, h0, hv0, -⟩ := shatLoop_ok (y := y) 0 n fun i _ _ => hp i
        rw [tab_ok _ hb, h0]
        simp only
        have e1 : (∑ q : Fin (p + 1), ((workRange n (mpiFrom n (p + 1) q) (mpiTo n (p + 1) q)).map fun i => shatRow i (fitAt x y W i)).sum 0) =
            ((workRange n 0 n).map fun i => shatRow i (fitAt x y W i)).sum 0 := by
          have := congrFun (sum_ranges (p := p) fun i => shatRow i (fitAt x y W i)) 0
          rw [Finset.sum_apply] at this
          rw [this, sum_workRange]
        have e2 : (Matrix.of fun i (_ : Fin 1) => allreduceMax p (fun q i => b q i 0) i : Matrix (Fin n) (Fin 1) ℝ) =
            Matrix.of fun i j => cutOf p (b0 i j) := by
          ext i j
          rw [Subsingleton.elim j 0]
          simp only [of_apply]
          rw [hv0 i (Nat.zero_le _) i.isLt, ← combined_cut p (fun i => (fitAt x y W i).beta 0) i]
          congr 1
          funext q l
          unfold partVec
          split
          · rename_i h; rw [hv q l h.1 h.2]
          · rename_i h; rw [hv' q l h]; rfl
        rw [e1, e2]
        cases aicc x y (of fun i j => cutOf p (b0 i j)) ((List.map (fun i => shatRow i (fitAt x y W i)) (workRange n 0 n)).sum 0) <;> rfl
      · push Not at hp
        obtain ⟨i, hi⟩ := hp
        rw [tabulate_singular (Q := fun i => (xtwx x (W i)).PosDef)
          (fun q h => by obtain ⟨b, hb, -⟩ := shatLoop_ok (y := y) _ _ h; exact ⟨_, hb⟩)
          (fun q h => shatLoop_fail x y W _ _ h) hi,
          shatLoop_fail x y W 0 n ⟨i, Nat.zero_le _, i.isLt, hi⟩]
  | throw e => rfl
  | ub => rfl
  | nonfinite => rfl

theorem search_cut (p : ℕ) (cr : Crit) (D : Fin n → Fin n → ℝ) (bounds : ℝ × ℝ) (x : Matrix (Fin n) (Fin 1) ℝ) (y : Fin n → ℝ)
    (b0 : BandwidthWeight) : mpiSelect p cr D bounds x y b0 = cutSelect (cutOf p) cr D bounds x y b0 := by
  unfold mpiSelect cutSelect
  simp only [criterion_cut]

/-! ## Blocks of rows -/

theorem rowsBefore_from (hne : ∀ q : Fin (p + 1), mpiFrom n (p + 1) q < mpiTo n (p + 1) q) :
    (∀ q : Fin (p + 1), rowsBefore (mpiRows n (p + 1)) q = mpiFrom n (p + 1) q) ∧ ∑ q, mpiRows n (p + 1) q = n := by
  have key : ∀ m ≤ p, ∑ q ∈ Finset.range m, (mpiTo n (p + 1) q - mpiFrom n (p + 1) q) = mpiFrom n (p + 1) m := by
    intro m
    induction m with
    | zero => intro _; simp [mpiFrom]
    | succ m ih =>
      intro hm
      rw [Finset.sum_range_succ, ih (by omega)]
      have h1 := hne ⟨m, by omega⟩
      have h2 := hne ⟨m + 1, by omega⟩
      simp only [mpiTo, mpiFrom, Nat.succ_mul] at h1 h2 ⊢
      omega
  constructor
  · intro q
    unfold rowsBefore mpiRows
    rw [Fin.sum_univ_eq_sum_range (fun q' => if q' < q.val then mpiTo n (p + 1) q' - mpiFrom n (p + 1) q' else 0) (p + 1), ← Finset.sum_filter,
      ← key q (by omega)]
    refine Finset.sum_congr ?_ fun _ _ => rfl
    ext a
    simp only [Finset.mem_filter, Finset.mem_range]
    omega
  · unfold mpiRows
    rw [Fin.sum_univ_eq_sum_range (fun q' => mpiTo n (p + 1) q' - mpiFrom n (p + 1) q') (p + 1), Finset.sum_range_succ, key p le_rfl]
    have h := hne ⟨p, by omega⟩
    have hall : n ≤ mpiFrom n (p + 1) p + mpiRangeSize n (p + 1) := by
      by_contra hc
      push Not at hc
      have ho := (mem_owner (p := p) (⟨mpiFrom n (p + 1) p + mpiRangeSize n (p + 1), hc⟩ : Fin n) _).2 rfl
      set o := ownerOf p (⟨mpiFrom n (p + 1) p + mpiRangeSize n (p + 1), hc⟩ : Fin n)
      have h1 : o.val ≤ p := by omega
      have h2 : o.val * mpiRangeSize n (p + 1) ≤ p * mpiRangeSize n (p + 1) := Nat.mul_le_mul_right _ h1
      have h3 := ho.2
      simp only [mpiTo, mpiFrom] at h3
      omega
    simp only [mpiTo] at h ⊢
    omega

theorem sum_block (F : ℕ → ℝ) (q : Fin (p + 1)) :
    ∑ e ∈ Finset.range (mpiRows n (p + 1) q), F (mpiFrom n (p + 1) q + e) = ((workRange n (mpiFrom n (p + 1) q) (mpiTo n (p + 1) q)).map fun i => F i.val).sum := by
  rw [workRange_sum]
  unfold mpiRows
  rw [← Finset.sum_Ico_eq_sum_range,
    Fin.sum_univ_eq_sum_range (fun i => if mpiFrom n (p + 1) q ≤ i ∧ i < mpiTo n (p + 1) q then F i else 0) n, ← Finset.sum_filter]
  refine Finset.sum_congr ?_ fun _ _ => rfl
  have : mpiTo n (p + 1) q ≤ n := Nat.min_le_right _ _
  ext a
  simp only [Finset.mem_filter, Finset.mem_range, Finset.mem_Ico]
  omega

/-- A matrix indexed by numbers. -/
def natMat (M : Matrix (Fin n) (Fin n) ℝ) (a b : ℕ) : ℝ := if h : a < n ∧ b < n then M ⟨a, h.1⟩ ⟨b, h.2⟩ else 0

/-- The distributed product of matrices whose rows the processes hold. -/
theorem product_blocks (hne : ∀ q : Fin (p + 1), mpiFrom n (p + 1) q < mpiTo n (p + 1) q) (hint : ∀ q, mpiRows n (p + 1) q * n < 2 ^ 31)
    (A B : Matrix (Fin n) (Fin n) ℝ) (a b : Fin (p + 1) → ℕ → Fin n → ℝ)
    (ha : ∀ (q : Fin (p + 1)) (j : Fin n), mpiFrom n (p + 1) q ≤ j.val → j.val < mpiTo n (p + 1) q → a q (j.val - mpiFrom n (p + 1) q) = A j)
    (hb : ∀ (q : Fin (p + 1)) (j : Fin n), mpiFrom n (p + 1) q ≤ j.val → j.val < mpiTo n (p + 1) q → b q (j.val - mpiFrom n (p + 1) q) = B j) :
    ∃ m, (Res.tabulate (p + 1) fun q =>
        matMulMpi (mpiRows n (p + 1)) (fun q => blockMem (mpiRows n (p + 1) q) (a q)) (fun q => blockAt (b q)) q) = .ok m ∧
      ∀ (q : Fin (p + 1)) (j : Fin n), mpiFrom n (p + 1) q ≤ j.val → j.val < mpiTo n (p + 1) q → ∀ l : Fin n,
        m q (j.val - mpiFrom n (p + 1) q) l.val = (A * B) j l := by
  obtain ⟨hrb, hsum⟩ := rowsBefore_from hne
  have hto : ∀ q : ℕ, mpiTo n (p + 1) q ≤ n := fun q => Nat.min_le_right _ _
  have hk : ∀ q, ∃ c, _ ∧ _ := fun q => C32_product_partial (mpiRows n (p + 1)) n hsum (natMat A) (natMat B)
    (fun q => blockMem (mpiRows n (p + 1) q) (a q)) (fun q => blockAt (b q)) (by
      intro q i j hi hj
      have hpos : 0 < mpiRows n (p + 1) q := Nat.zero_lt_of_lt hi
      have h1 : (j * mpiRows n (p + 1) q + i) / mpiRows n (p + 1) q = j := by
        rw [Nat.add_comm, Nat.add_mul_div_right _ _ hpos, Nat.div_eq_of_lt hi, Nat.zero_add]
      have h2 : (j * mpiRows n (p + 1) q + i) % mpiRows n (p + 1) q = i := by
        rw [Nat.add_comm, Nat.add_mul_mod_self_right, Nat.mod_eq_of_lt hi]
      have hi' : mpiFrom n (p + 1) q + i < mpiTo n (p + 1) q := by unfold mpiRows at hi; omega
      have hn : mpiFrom n (p + 1) q + i < n := lt_of_lt_of_le hi' (hto _)
      have e := ha q ⟨mpiFrom n (p + 1) q + i, hn⟩ (Nat.le_add_right _ _) hi'
      simp only [Nat.add_sub_cancel_left] at e
      rw [hrb]
      simp only [blockMem, h1, h2, natMat]
      rw [dif_pos hj, dif_pos ⟨hn, hj⟩, e])
    (by
      intro q l j hl
      have hi' : mpiFrom n (p + 1) q + l < mpiTo n (p + 1) q := by unfold mpiRows at hl; omega
      have hn : mpiFrom n (p + 1) q + l < n := lt_of_lt_of_le hi' (hto _)
      have e := hb q ⟨mpiFrom n (p + 1) q + l, hn⟩ (Nat.le_add_right _ _) hi'
      simp only [Nat.add_sub_cancel_left] at e
      rw [hrb]
      by_cases hj : j < n
      · simp only [blockAt, natMat, dif_pos hj, dif_pos (And.intro hn hj), e]
      · simp only [blockAt, natMat, dif_neg hj, dif_neg (fun h : _ ∧ _ => hj h.2)]) hint q
  choose m hm hv using hk
  refine ⟨m, tab_ok _ hm, fun q j h1 h2 l => ?_⟩
  have hr : mpiFrom n (p + 1) q + (j.val - mpiFrom n (p + 1) q) = j.val := by omega
  rw [hv q _ _ (by unfold mpiRows; omega), hrb, hr, Matrix.mul_apply,
    ← Fin.sum_univ_eq_sum_range (fun l' => natMat A j.val l' * natMat B l' l.val) n]
  refine Finset.sum_congr rfl fun l' _ => ?_
  simp only [natMat]
  rw [dif_pos ⟨j.isLt, l'.isLt⟩, dif_pos ⟨l'.isLt, l.isLt⟩]

/-! ## The run -/

theorem share_resid {c : MgwrCfg n k} {i : Fin k} {q : Fin (p + 1)} {s : BfState n k} {t : BfProc n k} (h : HoldsShare q s t) :
    procResid c.x i t = partialResid c i s := by
  unfold procResid partialResid
  rw [h.betas, h.resid]

theorem share_select (c : MgwrCfg n k) (i : Fin k) (b : BandwidthWeight) {q : Fin (p + 1)} {s : BfState n k} {t : BfProc n k}
    (h : HoldsShare q s t) : HoldsShare q (bfSelect c i b s) (procSelect c i b t) := by
  obtain ⟨f1, f2, f3, f4, f5, f6, f7⟩ := h
  unfold procSelect bfSelect
  simp only [f4, f5, Function.update_self]
  split
  · exact ⟨f1, f2, f3, rfl, rfl, f6, f7⟩
  · split
    · exact ⟨f1, f2, by simp only [f3], rfl, rfl, f6, f7⟩
    · exact ⟨f1, f2, f3, rfl, rfl, f6, f7⟩

theorem share_search (c : MgwrCfg n k) (u : MpiSearch n k) (i : Fin k) {s : BfState n k} {t : Fin (p + 1) → BfProc n k}
    (h : ∀ q, HoldsShare q s (t q)) :
    SameOutcome (fun t s => ∀ q, HoldsShare q s (t q)) (mpiBfSearch c u i t)
      (if s.init i = .Specified then .ok s
        else (cutSelect (cutOf p) (u.crit i) (u.dist i) (u.bounds i) (colOf c.x i) (partialResid c i s) (s.bw i)).bind fun b => .ok (bfSelect c i b s)) := by
  unfold mpiBfSearch
  by_cases hi : s.init i = .Specified
  · rw [if_pos hi, if_pos fun q => by rw [(h q).init]; exact hi]
    exact h
  · rw [if_neg hi, if_neg fun hq => hi (by rw [← (h 0).init]; exact hq 0), if_pos, search_cut, share_resid (h 0), (h 0).bw]
    · cases cutSelect (cutOf p) (u.crit i) (u.dist i) (u.bounds i) (colOf c.x i) (partialResid c i s) (s.bw i) with
      | ok b => exact sameOutcome_ok fun q => share_select c i b (h q)
      | throw e => exact rfl
      | ub => exact trivial
      | nonfinite => exact trivial
    · intro q
      rw [(h q).init, share_resid (h q), share_resid (h 0), (h q).bw, (h 0).bw]
      exact ⟨hi, rfl, rfl⟩

theorem share_fit (hne : ∀ q : Fin (p + 1), mpiFrom n (p + 1) q < mpiTo n (p + 1) q) (hint : ∀ q, mpiRows n (p + 1) q * n < 2 ^ 31)
    (c : MgwrCfg n k) (i : Fin k) (y : Fin n → ℝ) {s : BfState n k} {t : Fin (p + 1) → BfProc n k} (h : ∀ q, HoldsShare q s (t q)) :
    SameOutcome (fun t s => ∀ q, HoldsShare q s (t q)) (mpiFitVar c i (fun _ => y) t)
      ((fitVarCoreSerial (colOf c.x i) y (c.wt i (s.bw i)) fun _ => false).bind fun r =>
        .ok (bfStore c i (fun j => cutOf p (r.1 j)) r.2 s)) := by
  unfold mpiFitVar
  simp only [(h _).bw]
  refine sameOutcome_bind (fitVarBlocks (p := p) (colOf c.x i) y (c.wt i (s.bw i))) ?_
  rintro r ⟨beta, S⟩ ⟨hr1, hr2⟩
  simp only at hr1 hr2
  have hbeta : (allreduceMax p fun q => (r q).1) = fun j => cutOf p (beta j) := funext hr1
  have hsub : ∀ (q : Fin (p + 1)) (j : Fin n), mpiFrom n (p + 1) q ≤ j.val → j.val < mpiTo n (p + 1) q →
      (fun e l => (t q).sArr i e l - (t q).s0 e l : ℕ → Fin n → ℝ) (j.val - mpiFrom n (p + 1) q) = (s.sArr i - s.s0) j := by
    intro q j h1 h2
    funext l
    simp only [(h q).s0 j h1 h2, (h q).sArr i j h1 h2]
    rfl
  by_cases hh : c.hasHat = true
  · obtain ⟨m, hm, hv⟩ := product_blocks hne hint S (s.sArr i - s.s0) (fun q => (r q).2)
      (fun q e l => (t q).sArr i e l - (t q).s0 e l) hr2 hsub
    simp only [hh, if_true]
    rw [hm]
    simp only [Res.bind]
    refine sameOutcome_ok fun q => ?_
    have hslice : ∀ j : Fin n, mpiFrom n (p + 1) q ≤ j.val → j.val < mpiTo n (p + 1) q →
        (fun l : Fin n => m q (j.val - mpiFrom n (p + 1) q) l.val + (r q).2 (j.val - mpiFrom n (p + 1) q) l) =
          (S * (s.sArr i - s.s0) + S) j := by
      intro j h1 h2
      funext l
      rw [hv q j h1 h2 l, hr2 q j h1 h2]
      rfl
    unfold bfStore
    simp only [hh, if_true]
    refine ⟨?_, ?_, (h q).init, (h q).changeNo, rfl, fun j h1 h2 => ?_, fun i' j h1 h2 => ?_⟩
    · simp only [hbeta, (h q).betas]
    · simp only [hbeta, (h q).betas]
    · funext l
      have e1 := congrFun (hslice j h1 h2) l
      have e2 := congrFun (hsub q j h1 h2) l
      simp only at e1 e2 ⊢
      rw [e1, e2]
      rfl
    · by_cases hi : i' = i
      · subst hi
        simp only [Function.update_self]
        exact hslice j h1 h2
      · simp only [Function.update_of_ne hi]
        exact (h q).sArr i' j h1 h2
  · simp only [hh, Bool.false_eq_true, if_false, Res.bind]
    refine sameOutcome_ok fun q => ?_
    unfold bfStore
    simp only [hh, Bool.false_eq_true, if_false]
    exact ⟨by simp only [hbeta, (h q).betas], by simp only [hbeta, (h q).betas], (h q).init, (h q).changeNo, rfl, (h q).s0, (h q).sArr⟩

theorem share_var (hne : ∀ q : Fin (p + 1), mpiFrom n (p + 1) q < mpiTo n (p + 1) q) (hint : ∀ q, mpiRows n (p + 1) q * n < 2 ^ 31)
    (c : MgwrCfg n k) (u : MpiSearch n k) (i : Fin k) {s : BfState n k} {t : Fin (p + 1) → BfProc n k} (h : ∀ q, HoldsShare q s (t q)) :
    SameOutcome (fun t s => ∀ q, HoldsShare q s (t q)) (mpiBfVar c u i t) (cutVar (cutOf p) c u i s) := by
  unfold mpiBfVar cutVar
  refine sameOutcome_bind (share_search c u i h) fun t' s' h' => ?_
  have e : (fun q => procResid c.x i (t q)) = fun _ => partialResid c i s := funext fun q => share_resid (h q)
  rw [e]
  exact share_fit hne hint c i _ h'

theorem share_vars (hne : ∀ q : Fin (p + 1), mpiFrom n (p + 1) q < mpiTo n (p + 1) q) (hint : ∀ q, mpiRows n (p + 1) q * n < 2 ^ 31)
    (c : MgwrCfg n k) (u : MpiSearch n k) : ∀ (l : List (Fin k)) {s : BfState n k} {t : Fin (p + 1) → BfProc n k},
    (∀ q, HoldsShare q s (t q)) → SameOutcome (fun t s => ∀ q, HoldsShare q s (t q)) (mpiBfVars c u l t) (cutVars (cutOf p) c u l s)
  | [], _, _, h => h
  | i :: l, _, _, h => by
    rw [mpiBfVars, cutVars]
    exact sameOutcome_bind (share_var hne hint c u i h) fun t' s' h' => share_vars hne hint c u l h'

theorem share_loop (hne : ∀ q : Fin (p + 1), mpiFrom n (p + 1) q < mpiTo n (p + 1) q) (hint : ∀ q, mpiRows n (p + 1) q * n < 2 ^ 31)
    (c : MgwrCfg n k) (u : MpiSearch n k) : ∀ (m : ℕ) (go : Bool) (r0 : ℝ) {s : BfState n k} {t : Fin (p + 1) → BfProc n k},
    (∀ q, HoldsShare q s (t q)) → SameOutcome (fun t s => (∀ q, HoldsShare q s.1 (t.1 q)) ∧ ∀ q, t.2 q = s.2)
      (mpiBfLoop c u m (fun _ => go) (fun _ => r0) t) (cutLoop (cutOf p) c u m go r0 s)
  | 0, _, _, _, _, h => ⟨h, fun _ => rfl⟩
  | m + 1, go, r0, s, t, h => by
    rw [mpiBfLoop, cutLoop]
    cases go with
    | false => simp only [if_true, forall_const]; exact ⟨h, fun _ => rfl⟩
    | true =>
      simp only [Bool.true_eq_false, forall_const, if_false, if_true]
      refine sameOutcome_bind (share_vars hne hint c u _ h) fun t' s' h' => ?_
      simp only [(h' _).betas]
      exact share_loop hne hint c u m _ _ h'

theorem share_init (c : MgwrCfg n k) (W0 : Fin n → Fin n → ℝ) (init : Fin k → InitType) (bw : Fin k → BandwidthWeight) (q : Fin (p + 1))
    {a b : FitAcc n k} {r : Fin n → LocalFit n k} (ha : CoreFit c.x c.y W0 0 n true true a r)
    (hb : CoreFit c.x c.y W0 (mpiFrom n (p + 1) q) (mpiTo n (p + 1) q) true true b r) :
    HoldsShare q (bfInit c a init bw) (procInit c (mpiFrom n (p + 1) q) a.betas b init bw) := by
  refine ⟨rfl, rfl, rfl, rfl, rfl, fun j h1 h2 => ?_, fun i j h1 h2 => ?_⟩
  · simp only [procInit, bfInit]
    rw [hb.s rfl j h1 h2, ← ha.s rfl j (Nat.zero_le _) j.isLt]
    rfl
  · funext l
    simp only [procInit, bfInit]
    have e : mpiFrom n (p + 1) q + (j.val - mpiFrom n (p + 1) q) = j.val := by omega
    simp only [e]
    rw [dif_pos j.isLt, hb.c rfl j h1 h2, ← ha.c rfl j (Nat.zero_le _) j.isLt]
    rfl

theorem share_traces {s : BfState n k} {t : Fin (p + 1) → BfProc n k} (h : ∀ q, HoldsShare q s (t q)) :
    (∑ q : Fin (p + 1), (![∑ e ∈ Finset.range (mpiRows n (p + 1) q), blockAt (t q).s0 e (mpiFrom n (p + 1) q + e),
        ∑ e ∈ Finset.range (mpiRows n (p + 1) q), ∑ l, (t q).s0 e l * (t q).s0 e l] : Fin 2 → ℝ)) = ![trace s.s0, trace (s.s0 * s.s0ᵀ)] := by
  have hto : ∀ q : ℕ, mpiTo n (p + 1) q ≤ n := fun q => Nat.min_le_right _ _
  have key : ∀ (F : Fin n → ℝ) (G : Fin (p + 1) → ℕ → ℝ), (∀ (q : Fin (p + 1)) (j : Fin n), mpiFrom n (p + 1) q ≤ j.val → j.val < mpiTo n (p + 1) q →
      G q (j.val - mpiFrom n (p + 1) q) = F j) → ∑ q : Fin (p + 1), ∑ e ∈ Finset.range (mpiRows n (p + 1) q), G q e = ∑ j, F j := by
    intro F G hFG
    rw [← sum_ranges (p := p) F]
    refine Finset.sum_congr rfl fun q _ => ?_
    have e : (workRange n (mpiFrom n (p + 1) q) (mpiTo n (p + 1) q)).map F =
        (workRange n (mpiFrom n (p + 1) q) (mpiTo n (p + 1) q)).map fun i => (fun a => if h : a < n then F ⟨a, h⟩ else 0) i.val := by
      refine List.map_congr_left fun i _ => ?_
      simp
    rw [e, ← sum_block (n := n) (fun a => if h : a < n then F ⟨a, h⟩ else 0) q]
    refine Finset.sum_congr rfl fun a ha => ?_
    rw [Finset.mem_range] at ha
    unfold mpiRows at ha
    have h1 : mpiFrom n (p + 1) q + a < mpiTo n (p + 1) q := by omega
    have h2 : mpiFrom n (p + 1) q + a < n := lt_of_lt_of_le h1 (hto _)
    rw [dif_pos h2, ← hFG q ⟨_, h2⟩ (Nat.le_add_right _ _) h1]
    simp
  funext m
  rw [Finset.sum_apply]
  fin_cases m
  · simp only [Fin.zero_eta, cons_val_zero]
    refine (key (fun j => s.s0 j j) (fun q e => blockAt (t q).s0 e (mpiFrom n (p + 1) q + e)) fun q j h1 h2 => ?_).trans rfl
    have e : mpiFrom n (p + 1) q + (j.val - mpiFrom n (p + 1) q) = j.val := by omega
    simp only [blockAt, e]
    rw [dif_pos j.isLt, (h q).s0 j h1 h2]
  · simp only [Fin.mk_one, cons_val_one]
    refine (key (fun j => ∑ l, s.s0 j l * s.s0 j l) (fun q e => ∑ l, (t q).s0 e l * (t q).s0 e l) fun q j h1 h2 => ?_).trans ?_
    · simp only [(h q).s0 j h1 h2]
    · simp [trace, Matrix.mul_apply]

theorem coreSerial_fail (x : Matrix (Fin n) (Fin k) ℝ) (y : Fin n → ℝ) (W : Fin n → Fin n → ℝ) (f s : ℕ) (sS sC : Bool)
    (h : ∃ i : Fin n, f ≤ i.val ∧ i.val < s ∧ ¬ (xtwx x (W i)).PosDef) : fitCoreSerial x y W f s sS sC NoStop = .throw .singular := by
  obtain ⟨i, ha, hb, hn⟩ := h
  refine serialFor_fail (fun i => localFit_cases _ _ _ _) _ _ _ (fun _ _ => rfl) ⟨i, mem_workRange.2 ⟨ha, hb⟩, ?_⟩
  rcases localFit_cases x y (W i) (x i) with ⟨b, h⟩ | h
  · exact absurd (localFit_eq_ok.1 h).1 hn
  · exact h

/-- **C133 (the processes stay in step).** A multiscale fit distributed over `p + 1` processes, each of which has work, the messages of the initial
fit arriving in any order. The processes never take different branches, never hang, and every one of them ends with the same coefficients,
standard errors, bandwidths and diagnostics: those of a run by one process in which every coefficient of a single-variable fit is replaced by its
positive part (if there are two or more processes). It fails exactly when that run fails. Missing: matrices with 2³¹ or more entries per process,
for which the distributed product overflows (C32), and processes without work, for which the initial fit throws (C30). -/
theorem C133_in_step_partial (c : MgwrCfg n k) (u : MpiSearch n k) (W0 : Fin n → Fin n → ℝ) (init : Fin k → InitType)
    (bw : Fin k → BandwidthWeight) (hne : ∀ q : Fin (p + 1), mpiFrom n (p + 1) q < mpiTo n (p + 1) q)
    (hint : ∀ q : Fin (p + 1), (mpiTo n (p + 1) q - mpiFrom n (p + 1) q) * n < 2 ^ 31)
    (g1 : Fin (p + 1) → Fin 2 → ℝ) (g2 : Fin (p + 1) → Fin n → ℝ) (msgs : List (Fin (p + 1) × FitTag)) (hm : Arrivals msgs) :
    SameOutcome (fun f o => ∀ q, f q = o) (mpiMgwrFit p c u W0 init bw g1 g2 msgs) (cutMgwrFit (cutOf p) c u W0 init bw) := by
  unfold mpiMgwrFit cutMgwrFit
  by_cases hp : ∀ i, (xtwx c.x (W0 i)).PosDef
  · obtain ⟨a, ha, hca⟩ := fit_of_posDef c.x c.y W0 0 n true true fun i _ _ => hp i
    choose b hb hcb using fun q : Fin (p + 1) =>
      fit_of_posDef c.x c.y W0 (mpiFrom n (p + 1) q) (mpiTo n (p + 1) q) true true fun i _ _ => hp i
    have h1 := C30_fit_any_arrival_order c.x c.y W0 true true (fun q _ => hne q) g1 g2 msgs hm a ha
    rw [h1, ha, tab_ok _ hb]
    simp only [Res.bind]
    refine sameOutcome_bind (share_loop hne hint c u c.maxIter (decide (dblMax > c.critThreshold)) (rss c.x c.y a.betas)
      fun q => share_init c W0 init bw q hca (hcb q)) ?_
    rintro ⟨t, r⟩ ⟨s, r'⟩ ⟨h2, h3⟩
    refine sameOutcome_ok fun q => ?_
    simp only at h2 h3 ⊢
    rw [share_traces h2, (h2 q).betas, (h2 q).bw, (h2 q).init, h3 q]
    rfl
  · push Not at hp
    obtain ⟨i, hi⟩ := hp
    have e1 : fitCoreSerial c.x c.y W0 0 n true true (fun _ => false) = .throw .singular :=
      coreSerial_fail c.x c.y W0 0 n true true ⟨i, Nat.zero_le _, i.isLt, hi⟩
    have e2 : fitMpi p c.x c.y W0 true true g1 g2 msgs = .throw .singular := by
      unfold fitMpi
      rw [if_neg (by rintro ⟨q, -, hq⟩; exact absurd (hne q) (by omega)), tabulate_singular (Q := fun i => (xtwx c.x (W0 i)).PosDef)
        (fun q h => by obtain ⟨b, hb, -⟩ := fit_of_posDef c.x c.y W0 _ _ true true h; exact ⟨_, hb⟩)
        (fun q h => coreSerial_fail c.x c.y W0 _ _ true true h) hi]
      rfl
    rw [e1, e2]
    rfl

/-! ## The run of a single process -/

theorem cut_id_criterion (cr : Crit) (x : Matrix (Fin n) (Fin 1) ℝ) (y : Fin n → ℝ) (rows : Res (Fin n → Fin n → ℝ)) :
    cutCriterion id cr x y rows = varCriterion cr x y rows := by
  cases rows with
  | ok W =>
    cases cr with
    | CV =>
      simp only [cutCriterion, varCriterion, varCriterionCV, criterionCV]
      by_cases hp : ∀ i : Fin n, 0 ≤ i.val → i.val < n → (xtwx x (cvWeight W i)).PosDef
      · obtain ⟨b, hb, -⟩ := (cvLoop_cases x y W 0 n).1 hp
        rw [hb]
        simp only [and_self, if_true]
        rfl
      · push Not at hp
        rw [(cvLoop_cases x y W 0 n).2 hp]
    | AIC =>
      simp only [cutCriterion, varCriterion, varCriterionAIC, criterionAIC]
      by_cases hp : ∀ i : Fin n, 0 ≤ i.val → i.val < n → (xtwx x (W i)).PosDef
      · obtain ⟨b, hb, -⟩ := shatLoop_ok (y := y) 0 n hp
        rw [hb]
        simp only [and_self, if_true, id_eq]
        rfl
      · push Not at hp
        rw [shatLoop_fail x y W 0 n hp]
  | throw e => rfl
  | ub => rfl
  | nonfinite => rfl

theorem cut_id_vars (c : MgwrCfg n k) (u : MpiSearch n k) (it : ℕ) : ∀ (l : List (Fin k)) (s : BfState n k) (log : List (BfState n k)),
    SameOutcome (fun s r => r.1 = s) (cutVars id c u l s) (bfVars c (undisturbed c u) it l s log)
  | [], _, _ => rfl
  | i :: l, s, log => by
    rw [cutVars, bfVars]
    refine sameOutcome_bind (R := fun s r => r = (s, false)) ?_ fun s' r h => ?_
    · unfold cutVar bfVar
      rw [if_neg (show ¬ (undisturbed c u).stopVar it i = true by simp [undisturbed])]
      have e : (if s.init i = .Specified then .ok s
          else (cutSelect id (u.crit i) (u.dist i) (u.bounds i) (colOf c.x i) (partialResid c i s) (s.bw i)).bind fun b =>
            .ok (bfSelect c i b s)) = bfSearch c (undisturbed c u) it i s := by
        unfold bfSearch undisturbed cutSelect mgwrSelect
        simp only [cut_id_criterion]
      rw [e]
      cases bfSearch c (undisturbed c u) it i s with
      | ok s' =>
        simp only [Res.bind]
        rw [if_neg (show ¬ (undisturbed c u).stopFit it i = true by simp [undisturbed])]
        have e2 : (undisturbed c u).stopLoc it i = fun _ => false := rfl
        rw [e2]
        cases fitVarCoreSerial (colOf c.x i) (partialResid c i s) (c.wt i (s'.bw i)) fun _ => false with
        | ok r => exact rfl
        | throw e => exact rfl
        | ub => exact trivial
        | nonfinite => exact trivial
      | throw e => exact rfl
      | ub => exact trivial
      | nonfinite => exact trivial
    · subst h
      exact cut_id_vars c u it l s' _

theorem cut_id_loop (c : MgwrCfg n k) (u : MpiSearch n k) : ∀ (m it : ℕ) (go : Bool) (r0 : ℝ) (s : BfState n k) (log : List (BfState n k))
    (hist : List ℝ), SameOutcome (fun a r => r.state = a.1 ∧ r.rss = a.2) (cutLoop id c u m go r0 s)
      (bfLoop c (undisturbed c u) m it go r0 s log hist)
  | 0, _, _, _, _, _, _ => ⟨rfl, rfl⟩
  | m + 1, it, go, r0, s, log, hist => by
    rw [cutLoop, bfLoop]
    cases go with
    | false => simp only [if_true]; exact ⟨rfl, rfl⟩
    | true =>
      simp only [Bool.true_eq_false, if_false]
      rw [if_neg (show ¬ (undisturbed c u).stopIter it = true by simp [undisturbed])]
      refine sameOutcome_bind (cut_id_vars c u it _ s log) ?_
      rintro s' ⟨s'', log'⟩ h
      simp only at h
      subst h
      exact cut_id_loop c u m _ _ _ _ _ _

/-- The specification's run of a single process, with coefficients left alone, is the model's run of a single process. -/
theorem cut_id_fit (c : MgwrCfg n k) (u : MpiSearch n k) (W0 : Fin n → Fin n → ℝ) (init : Fin k → InitType) (bw : Fin k → BandwidthWeight) :
    SameOutcome (fun o o' => o = o') (cutMgwrFit id c u W0 init bw) (mgwrFit c (undisturbed c u) W0 init bw) := by
  unfold cutMgwrFit mgwrFit
  refine sameOutcome_bind (R := fun a b => a = b) ?_ fun a b h => ?_
  · cases fitCoreSerial c.x c.y W0 0 n true true fun _ => false <;> first | exact rfl | exact trivial
  · subst h
    refine sameOutcome_bind (cut_id_loop c u _ 0 _ _ _ _ _) ?_
    rintro ⟨s, r⟩ b ⟨h1, h2⟩
    refine sameOutcome_ok ?_
    simp only at h1 h2
    rw [h1, h2]

theorem sameOutcome_const {P : Type} [Nonempty P] {β : Type} {a : Res (P → β)} {b : Res β} (h : SameOutcome (fun f o => ∀ q, f q = o) a b) :
    a = b.bind fun o => .ok fun _ => o := by
  cases a <;> cases b <;> simp only [SameOutcome] at h <;> simp only [Res.bind]
  · rw [funext h]
  · rw [h]

theorem sameOutcome_eq {β : Type} {a b : Res β} (h : SameOutcome (fun o o' => o = o') a b) : a = b := by
  cases a <;> cases b <;> simp only [SameOutcome] at h <;> simp [h]

/-- **C133 (one process).** With one process the distributed program is the ordinary one. -/
theorem C133_one_process (c : MgwrCfg n k) (u : MpiSearch n k) (W0 : Fin n → Fin n → ℝ) (init : Fin k → InitType)
    (bw : Fin k → BandwidthWeight) (hn : 0 < n) (hint : n * n < 2 ^ 31) (g1 : Fin 1 → Fin 2 → ℝ) (g2 : Fin 1 → Fin n → ℝ) :
    mpiMgwrFit 0 c u W0 init bw g1 g2 [] = (mgwrFit c (undisturbed c u) W0 init bw).bind fun o => .ok fun _ => o := by
  have h0 : ∀ q : Fin (0 + 1), mpiFrom n (0 + 1) q = 0 ∧ mpiTo n (0 + 1) q = n := by
    intro q
    have : q.val = 0 := by omega
    rw [this]
    simp [mpiFrom, mpiTo, mpiRangeSize, Nat.mod_one]
  have hcut : cutOf 0 = id := by funext b; simp [cutOf]
  have := C133_in_step_partial (p := 0) c u W0 init bw (fun q => by rw [(h0 q).1, (h0 q).2]; exact hn)
    (fun q => by rw [(h0 q).1, (h0 q).2]; simpa using hint) g1 g2 [] ⟨by simp, fun q t => by
      have : q = 0 := Fin.ext (by simp)
      simp [this]⟩
  rw [sameOutcome_const this, hcut, sameOutcome_eq (cut_id_fit c u W0 init bw)]

/-! ## Signs -/

theorem cutVar_betas {cut : ℝ → ℝ} {c : MgwrCfg n k} {u : MpiSearch n k} {i : Fin k} {s s' : BfState n k} (h : cutVar cut c u i s = .ok s') :
    (∀ j, ∃ b, s'.betas j i = cut b) ∧ ∀ j m, m ≠ i → s'.betas j m = s.betas j m := by
  unfold cutVar at h
  obtain ⟨s1, h1, h⟩ := Res.bind_eq_ok'.1 h
  obtain ⟨r, -, h⟩ := Res.bind_eq_ok'.1 h
  obtain rfl := Res.ok.inj h
  have hb : s1.betas = s.betas := by
    split at h1
    · rw [← Res.ok.inj h1]
    · obtain ⟨b, -, h1⟩ := Res.bind_eq_ok'.1 h1
      rw [← Res.ok.inj h1]
      exact (bfSelect_fields c i b s).1
  refine ⟨fun j => ⟨r.1 j, ?_⟩, fun j m hm => ?_⟩
  · simp [bfStore]
  · simp [bfStore, hm, hb]

theorem cutVars_betas {cut : ℝ → ℝ} {c : MgwrCfg n k} {u : MpiSearch n k} : ∀ {l : List (Fin k)} {s s' : BfState n k},
    cutVars cut c u l s = .ok s' → ∀ j m, (m ∈ l ∨ ∃ b, s.betas j m = cut b) → ∃ b, s'.betas j m = cut b
  | [], s, s', h, j, m, hm => by
    rw [cutVars] at h
    obtain rfl := Res.ok.inj h
    exact hm.resolve_left (by simp)
  | i :: l, s, s', h, j, m, hm => by
    rw [cutVars] at h
    obtain ⟨s1, h1, h⟩ := Res.bind_eq_ok'.1 h
    refine cutVars_betas h j m ?_
    obtain ⟨e1, e2⟩ := cutVar_betas h1
    by_cases hmi : m = i
    · subst hmi; exact Or.inr (e1 j)
    · rcases hm with hm | hm
      · exact Or.inl ((List.mem_cons.1 hm).resolve_left hmi)
      · exact Or.inr (by rw [e2 j m hmi]; exact hm)

theorem cutLoop_betas {cut : ℝ → ℝ} {c : MgwrCfg n k} {u : MpiSearch n k} : ∀ {m : ℕ} {go : Bool} {r0 : ℝ} {s : BfState n k} {r : BfState n k × ℝ},
    cutLoop cut c u m go r0 s = .ok r → (0 < m ∧ go = true ∨ ∀ j i, ∃ b, s.betas j i = cut b) → ∀ j i, ∃ b, r.1.betas j i = cut b
  | 0, _, _, s, r, h, hm => by
    rw [cutLoop] at h
    obtain rfl := Res.ok.inj h
    exact hm.resolve_left (by simp)
  | m + 1, go, r0, s, r, h, hm => by
    rw [cutLoop] at h
    cases go with
    | false =>
      rw [if_pos rfl] at h
      obtain rfl := Res.ok.inj h
      exact hm.resolve_left (by simp)
    | true =>
      rw [if_neg (by simp)] at h
      obtain ⟨s1, h1, h⟩ := Res.bind_eq_ok'.1 h
      exact cutLoop_betas h (Or.inr fun j i => cutVars_betas h1 j i (Or.inl (List.mem_finRange i)))

/-- **C133 (disagreement: signs).** A multiscale fit on two or more processes that runs at least one iteration never reports a negative
coefficient, at any location, for any variable, in any process, whatever the data. -/
theorem C133_never_negative (c : MgwrCfg n k) (u : MpiSearch n k) (W0 : Fin n → Fin n → ℝ) (init : Fin k → InitType)
    (bw : Fin k → BandwidthWeight) (hne : ∀ q : Fin (p + 2), mpiFrom n (p + 2) q < mpiTo n (p + 2) q)
    (hint : ∀ q : Fin (p + 2), (mpiTo n (p + 2) q - mpiFrom n (p + 2) q) * n < 2 ^ 31) (hit : 0 < c.maxIter) (hthr : c.critThreshold < dblMax)
    (g1 : Fin (p + 2) → Fin 2 → ℝ) (g2 : Fin (p + 2) → Fin n → ℝ) (msgs : List (Fin (p + 2) × FitTag)) (hm : Arrivals msgs)
    (f : Fin (p + 2) → MgwrOut n k) (h : mpiMgwrFit (p + 1) c u W0 init bw g1 g2 msgs = .ok f) (q : Fin (p + 2)) (j : Fin n) (i : Fin k) :
    0 ≤ (f q).betas j i := by
  have hs := C133_in_step_partial (p := p + 1) c u W0 init bw hne hint g1 g2 msgs hm
  rw [h] at hs
  cases ho : cutMgwrFit (cutOf (p + 1)) c u W0 init bw with
  | ok o =>
    rw [ho] at hs
    have e : f q = o := hs q
    rw [e]
    unfold cutMgwrFit at ho
    obtain ⟨a, -, ho⟩ := Res.bind_eq_ok'.1 ho
    obtain ⟨r, hr, ho⟩ := Res.bind_eq_ok'.1 ho
    obtain rfl := Res.ok.inj ho
    obtain ⟨b, hb⟩ := cutLoop_betas hr (Or.inl ⟨hit, by simpa using hthr⟩) j i
    simp only [hb, cutOf]
    rw [if_neg (by omega)]
    exact le_max_right _ _
  | throw e => rw [ho] at hs; exact hs.elim
  | ub => rw [ho] at hs; exact hs.elim
  | nonfinite => rw [ho] at hs; exact hs.elim

/-- Coefficients of data that lie exactly on a linear model. -/
theorem fitAt_exact {m : ℕ} (x : Matrix (Fin n) (Fin m) ℝ) (W : Fin n → Fin n → ℝ) (b : Fin m → ℝ) (i : Fin n) (h : (xtwx x (W i)).PosDef) :
    (fitAt x (x *ᵥ b) W i).beta = b := by
  have e := (localFit_eq_ok.1 (localFit_fitAt (y := x *ᵥ b) h))
  have hu : IsUnit (xtwx x (W i)).det := (Matrix.isUnit_iff_isUnit_det _).1 h.isUnit
  have e2 : (fitAt x (x *ᵥ b) W i).beta = (xtwx x (W i))⁻¹ *ᵥ (xtw x (W i) *ᵥ (x *ᵥ b)) := rfl
  rw [e2, ← xtwx_mulVec, Matrix.mulVec_mulVec, Matrix.nonsing_inv_mul _ hu, Matrix.one_mulVec]

theorem exact_cutVar {cut : ℝ → ℝ} {c : MgwrCfg n k} {u : MpiSearch n k} {b : Fin k → ℝ} (hcut : ∀ i, cut (b i) = b i) (hy : c.y = c.x *ᵥ b)
    {bw : Fin k → BandwidthWeight} (hwt : ∀ i j, (xtwx (colOf c.x i) (c.wt i (bw i) j)).PosDef) (i : Fin k) {s : BfState n k}
    (h : (∀ i, s.init i = .Specified) ∧ s.bw = bw ∧ (∀ j i, s.betas j i = b i) ∧ ∀ j, s.resid j = 0) :
    ∃ s', cutVar cut c u i s = .ok s' ∧ (∀ i, s'.init i = .Specified) ∧ s'.bw = bw ∧ (∀ j i, s'.betas j i = b i) ∧ ∀ j, s'.resid j = 0 := by
  obtain ⟨h1, h2, h3, h4⟩ := h
  have ey : partialResid c i s = colOf c.x i *ᵥ fun _ => b i := by
    funext j
    simp only [partialResid, h3, h4, mulVec, dotProduct, colOf, Finset.univ_unique, Finset.sum_singleton]
    simp [mul_comm]
  unfold cutVar
  rw [if_pos (h1 i)]
  simp only [Res.bind]
  rw [fitVarSerial_eq _ _ _ (fun _ => rfl), if_pos (by rw [h2]; exact hwt i)]
  have hb : ∀ (j : Fin n) (m : Fin k), (if m = i then cut ((fitAt (colOf c.x i) (partialResid c i s) (c.wt i (s.bw i)) j).beta 0) else s.betas j m) = b m := by
    intro j m
    split
    · rename_i e
      subst e
      rw [ey, fitAt_exact _ _ _ _ (by rw [h2]; exact hwt m j), hcut]
    · exact h3 j m
  refine ⟨_, rfl, h1, h2, fun j m => ?_, fun j => ?_⟩
  · exact hb j m
  · simp only [bfStore, hb]
    rw [hy]
    simp [fitted, mulVec, dotProduct, mul_comm]

/-- Predictors and weights that determine the coefficients, given bandwidths, and a response that is exactly
`X b`. The run of a single process returns `b` at every location. -/
theorem exact_cutFit {cut : ℝ → ℝ} (c : MgwrCfg n k) (u : MpiSearch n k) (W0 : Fin n → Fin n → ℝ) (bw : Fin k → BandwidthWeight) (b : Fin k → ℝ)
    (hcut : ∀ i, cut (b i) = b i) (hy : c.y = c.x *ᵥ b) (hW0 : ∀ j, (xtwx c.x (W0 j)).PosDef)
    (hwt : ∀ i j, (xtwx (colOf c.x i) (c.wt i (bw i) j)).PosDef) :
    ∃ o, cutMgwrFit cut c u W0 (fun _ => .Specified) bw = .ok o ∧ ∀ j i, o.betas j i = b i := by
  obtain ⟨a, ha, hca⟩ := fit_of_posDef c.x c.y W0 0 n true true fun i _ _ => hW0 i
  have hab : ∀ j i, a.betas j i = b i := fun j i => by
    rw [hca.betas j (Nat.zero_le _) j.isLt, hy, fitAt_exact _ _ _ _ (hW0 j)]
  have hvars : ∀ (l : List (Fin k)) (s : BfState n k),
      ((∀ i, s.init i = .Specified) ∧ s.bw = bw ∧ (∀ j i, s.betas j i = b i) ∧ ∀ j, s.resid j = 0) →
      ∃ s', cutVars cut c u l s = .ok s' ∧ (∀ i, s'.init i = .Specified) ∧ s'.bw = bw ∧ (∀ j i, s'.betas j i = b i) ∧ ∀ j, s'.resid j = 0 := by
    intro l
    induction l with
    | nil => intro s h; exact ⟨s, rfl, h⟩
    | cons i l ih =>
      intro s h
      obtain ⟨s', e, h'⟩ := exact_cutVar (u := u) hcut hy hwt i h
      rw [cutVars, e]
      exact ih s' h'
  have hloop : ∀ (m : ℕ) (go : Bool) (r0 : ℝ) (s : BfState n k),
      ((∀ i, s.init i = .Specified) ∧ s.bw = bw ∧ (∀ j i, s.betas j i = b i) ∧ ∀ j, s.resid j = 0) →
      ∃ r, cutLoop cut c u m go r0 s = .ok r ∧ ∀ j i, r.1.betas j i = b i := by
    intro m
    induction m with
    | zero => intro go r0 s h; exact ⟨_, rfl, h.2.2.1⟩
    | succ m ih =>
      intro go r0 s h
      rw [cutLoop]
      split
      · exact ⟨_, rfl, h.2.2.1⟩
      · obtain ⟨s', e, h'⟩ := hvars (List.finRange k) s h
        rw [e]
        exact ih _ _ s' h'
  obtain ⟨r, hr, hb⟩ := hloop c.maxIter (decide (dblMax > c.critThreshold)) (rss c.x c.y a.betas) (bfInit c a (fun _ => .Specified) bw)
    ⟨fun _ => rfl, rfl, hab, fun j => by
      simp only [bfInit]
      rw [hy]
      simp [fitted, mulVec, dotProduct, hab, mul_comm]⟩
  have ha' : fitCoreSerial c.x c.y W0 0 n true true (fun _ => false) = .ok (a, false) := ha
  have hr' : cutBackfitting cut c u (bfInit c a (fun _ => .Specified) bw) = .ok r := hr
  unfold cutMgwrFit
  rw [ha']
  simp only [Res.bind]
  rw [hr']
  exact ⟨_, rfl, hb⟩

/-- **C133 (data on a linear model).** Predictors and weights that determine the coefficients, given bandwidths, a response that is exactly `X b`.
One process returns `b` at every location. So do `p + 1` processes if no coefficient in `b` is negative. If one is negative, two or more processes
that run an iteration return something else, in every process. -/
theorem C133_exact_data (c : MgwrCfg n k) (u : MpiSearch n k) (W0 : Fin n → Fin n → ℝ) (bw : Fin k → BandwidthWeight) (b : Fin k → ℝ)
    (hy : c.y = c.x *ᵥ b) (hW0 : ∀ j, (xtwx c.x (W0 j)).PosDef) (hwt : ∀ i j, (xtwx (colOf c.x i) (c.wt i (bw i) j)).PosDef)
    (hne : ∀ q : Fin (p + 1), mpiFrom n (p + 1) q < mpiTo n (p + 1) q)
    (hint : ∀ q : Fin (p + 1), (mpiTo n (p + 1) q - mpiFrom n (p + 1) q) * n < 2 ^ 31)
    (g1 : Fin (p + 1) → Fin 2 → ℝ) (g2 : Fin (p + 1) → Fin n → ℝ) (msgs : List (Fin (p + 1) × FitTag)) (hm : Arrivals msgs) :
    (∃ o, mgwrFit c (undisturbed c u) W0 (fun _ => .Specified) bw = .ok o ∧ ∀ j i, o.betas j i = b i) ∧
    ((∀ i, 0 ≤ b i) → ∃ f, mpiMgwrFit p c u W0 (fun _ => .Specified) bw g1 g2 msgs = .ok f ∧ ∀ q j i, (f q).betas j i = b i) ∧
    (0 < p → 0 < c.maxIter → c.critThreshold < dblMax → ∀ i, b i < 0 →
      ∀ f, mpiMgwrFit p c u W0 (fun _ => .Specified) bw g1 g2 msgs = .ok f → ∀ q j, (f q).betas j i ≠ b i) := by
  refine ⟨?_, fun hb => ?_, fun hp hit hthr i hi f hf q j => ?_⟩
  · obtain ⟨o, ho, h⟩ := exact_cutFit (cut := id) c u W0 bw b (fun _ => rfl) hy hW0 hwt
    exact ⟨o, by rw [← sameOutcome_eq (cut_id_fit c u W0 _ bw)]; exact ho, h⟩
  · obtain ⟨o, ho, h⟩ := exact_cutFit (cut := cutOf p) c u W0 bw b (fun i => by unfold cutOf; split <;> simp [hb i]) hy hW0 hwt
    have hs := C133_in_step_partial c u W0 (fun _ => .Specified) bw hne hint g1 g2 msgs hm
    rw [sameOutcome_const hs, ho]
    exact ⟨_, rfl, fun _ j i => h j i⟩
  · obtain ⟨p, rfl⟩ : ∃ p', p = p' + 1 := ⟨p - 1, by omega⟩
    have := C133_never_negative c u W0 _ bw hne hint hit hthr g1 g2 msgs hm f hf q j i
    intro h
    rw [h] at this
    exact absurd hi (not_lt.2 this)

/-! ## A concrete run -/

theorem exShare_range (q : Fin 2) : mpiFrom 3 2 q < mpiTo 3 2 q := (C30_ranges_nonempty 3 2 (by norm_num) (by norm_num) q q.isLt).1

theorem exShare_int (q : Fin 2) : (mpiTo 3 2 q - mpiFrom 3 2 q) * 3 < 2 ^ 31 := by fin_cases q <;> simp [mpiTo, mpiFrom, mpiRangeSize]

/-- Searches by cross-validation over bandwidths between one and two. -/
noncomputable def exMpiSearch : MpiSearch 3 2 := { crit := fun _ => .CV, dist := fun _ i j => |(i.val : ℝ) - j.val|, bounds := fun _ => (1, 2) }

/-- Three observations on two processes, with bandwidth searches. -/
example : SameOutcome (fun f o => ∀ q, f q = o)
    (mpiMgwrFit 1 exCfg exMpiSearch exW (fun _ => .Null) (fun _ => ⟨2, false, .Gaussian⟩) (fun _ _ => 7) (fun _ _ => 9)
      [(1, FitTag.QDiag), (1, .SHat), (1, .Betas), (1, .BetasSE)])
    (cutMgwrFit (fun b => max b 0) exCfg exMpiSearch exW (fun _ => .Null) (fun _ => ⟨2, false, .Gaussian⟩)) := by
  have h := C133_in_step_partial (p := 1) exCfg exMpiSearch exW (fun _ => .Null) (fun _ => ⟨2, false, .Gaussian⟩) exShare_range exShare_int
    (fun _ _ => 7) (fun _ _ => 9) _ ex_arrivals_fit
  have e : cutOf 1 = fun b => max b 0 := by funext b; simp [cutOf]
  rw [e] at h
  exact h

example : mpiMgwrFit 0 exCfg exMpiSearch exW (fun _ => .Null) (fun _ => ⟨2, false, .Gaussian⟩) (fun _ _ => 7) (fun _ _ => 9) [] =
    (mgwrFit exCfg (undisturbed exCfg exMpiSearch) exW (fun _ => .Null) (fun _ => ⟨2, false, .Gaussian⟩)).bind fun o => .ok fun _ => o :=
  C133_one_process exCfg exMpiSearch exW _ _ (by norm_num) (by norm_num) _ _

theorem exW_posDef (j : Fin 3) : (xtwx exX (exW j)).PosDef := by
  obtain ⟨a, ha⟩ := ex_fit ![1, 3, 2] true true
  exact (fitCoreSerial_ok ha).1 j (Nat.zero_le _) j.isLt

/-- The response falls: one process finds both coefficients, two processes lose the negative one. -/
example : (∃ o, mgwrFit { exCfg with y := exX *ᵥ ![3, -1] } (undisturbed { exCfg with y := exX *ᵥ ![3, -1] } exMpiSearch) exW
      (fun _ => .Specified) (fun _ => ⟨2, false, .Gaussian⟩) = .ok o ∧ ∀ j i, o.betas j i = ![3, -1] i) ∧
    ∀ f, mpiMgwrFit 1 { exCfg with y := exX *ᵥ ![3, -1] } exMpiSearch exW (fun _ => .Specified) (fun _ => ⟨2, false, .Gaussian⟩)
      (fun _ _ => 7) (fun _ _ => 9) [(1, FitTag.QDiag), (1, .SHat), (1, .Betas), (1, .BetasSE)] = .ok f → ∀ q j, (f q).betas j 1 ≠ -1 := by
  obtain ⟨h1, -, h3⟩ := C133_exact_data (p := 1) { exCfg with y := exX *ᵥ ![3, -1] } exMpiSearch exW (fun _ => ⟨2, false, .Gaussian⟩) ![3, -1]
    rfl exW_posDef (fun i j => exCol_posDef i j) exShare_range exShare_int (fun _ _ => 7) (fun _ _ => 9) _ ex_arrivals_fit
  refine ⟨h1, fun f hf q j => ?_⟩
  have := h3 (by norm_num) (by norm_num [exCfg]) (by simpa [exCfg] using lt_trans (by norm_num) hundred_lt_dblMax) 1 (by simp) f hf q j
  simpa using this

/-- With a rising response two processes find the coefficients, and nothing they report is negative. -/
example : ∃ f, mpiMgwrFit 1 { exCfg with y := exX *ᵥ ![3, 1] } exMpiSearch exW (fun _ => .Specified) (fun _ => ⟨2, false, .Gaussian⟩)
      (fun _ _ => 7) (fun _ _ => 9) [(1, FitTag.QDiag), (1, .SHat), (1, .Betas), (1, .BetasSE)] = .ok f ∧ ∀ q j i, 0 ≤ (f q).betas j i := by
  obtain ⟨-, h2, -⟩ := C133_exact_data (p := 1) { exCfg with y := exX *ᵥ ![3, 1] } exMpiSearch exW (fun _ => ⟨2, false, .Gaussian⟩) ![3, 1]
    rfl exW_posDef (fun i j => exCol_posDef i j) exShare_range exShare_int (fun _ _ => 7) (fun _ _ => 9) _ ex_arrivals_fit
  obtain ⟨f, hf, -⟩ := h2 fun i => by fin_cases i <;> simp
  exact ⟨f, hf, C133_never_negative _ _ _ _ _ exShare_range exShare_int (by norm_num [exCfg])
    (by simpa [exCfg] using lt_trans (by norm_num) hundred_lt_dblMax) _ _ _ ex_arrivals_fit f hf⟩

end Verif.Props

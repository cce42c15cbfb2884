import Verif.Model.GWRScalable
import Verif.Spec.Scalable
import Verif.Props.GWDR
import Verif.Props.GWSS

/-! # C36, C37, C39, C67, C68, C69: scalable regression -/

namespace Verif.Props
open Verif Verif.Model Verif.Spec Matrix

variable {n k P : ℕ}

/-! ## C36 -/

theorem slotRead_eq_slotWrite (P k k1 p k2 : ℕ) : slotRead P k k1 p k2 = slotWrite P k k1 p k2 := by
  unfold slotRead slotWrite; ring

theorem slotWrite_inj {k1 k2 k1' k2' : Fin k} {p p' : Fin (P + 1)} (h : slotWrite P k k1 p k2 = slotWrite P k k1' p' k2') :
    k1 = k1' ∧ p = p' ∧ k2 = k2' := by
  unfold slotWrite at h
  have hk : 0 < k := k1.pos
  have e2 : k2.val = k2'.val := by
    have := congrArg (· % k) h
    simpa [Nat.mod_eq_of_lt k2.isLt, Nat.mod_eq_of_lt k2'.isLt] using this
  have e : k1.val * (P + 1) + p = k1' * (P + 1) + p' := by
    rw [e2] at h
    exact Nat.eq_of_mul_eq_mul_right hk (Nat.add_right_cancel h)
  have ep : p.val = p'.val := by
    have := congrArg (· % (P + 1)) e
    simpa [Nat.mod_eq_of_lt p.isLt, Nat.mod_eq_of_lt p'.isLt] using this
  rw [ep] at e
  exact ⟨Fin.ext (Nat.eq_of_mul_eq_mul_right (Nat.succ_pos P) (Nat.add_right_cancel e)), Fin.ext ep, Fin.ext e2⟩

theorem slotY_inj {k1 k1' : Fin k} {p p' : Fin (P + 1)} (h : slotY k p k1 = slotY k p' k1') : k1 = k1' ∧ p = p' := by
  unfold slotY at h
  have hk : 0 < k := k1.pos
  have e2 : k1.val = k1'.val := by
    have := congrArg (· % k) h
    simpa [Nat.mod_eq_of_lt k1.isLt, Nat.mod_eq_of_lt k1'.isLt] using this
  rw [e2] at h
  exact ⟨Fin.ext e2, Fin.ext (Nat.eq_of_mul_eq_mul_right hk (Nat.add_right_cancel h))⟩

/-- **C36 (slots).** The slot read for a coefficient pair and degree is the one written for it, every slot is inside the table, and no two
entries share one; likewise in the table of responses. -/
theorem C36_slots :
    (∀ k1 k2 : Fin k, ∀ p : Fin (P + 1), slotRead P k k1 p k2 = slotWrite P k k1 p k2 ∧ slotWrite P k k1 p k2 < (P + 1) * k * k) ∧
    (Function.Injective fun q : Fin k × Fin (P + 1) × Fin k => slotWrite P k q.1 q.2.1 q.2.2) ∧
    (∀ k1 : Fin k, ∀ p : Fin (P + 1), slotY k p k1 < (P + 1) * k) ∧
    Function.Injective fun q : Fin k × Fin (P + 1) => slotY k q.2 q.1 := by
  refine ⟨fun k1 k2 p => ⟨slotRead_eq_slotWrite .., ?_⟩, ?_, ?_, ?_⟩
  · unfold slotWrite
    have h1 := k1.isLt; have h2 := k2.isLt; have hp := p.isLt
    have : k1.val * (P + 1) + p + 1 ≤ (P + 1) * k := by nlinarith
    nlinarith [Nat.mul_le_mul_right k this]
  · rintro ⟨a, b, c⟩ ⟨a', b', c'⟩ h
    obtain ⟨rfl, rfl, rfl⟩ := slotWrite_inj h
    rfl
  · intro k1 p
    unfold slotY
    have h1 := k1.isLt; have hp := p.isLt
    nlinarith
  · rintro ⟨a, b⟩ ⟨a', b'⟩ h
    obtain ⟨rfl, rfl⟩ := slotY_inj h
    rfl

theorem mem_writeOrder (q : Fin k × Fin (P + 1) × Fin k) : q ∈ writeOrder P k := by simp [writeOrder]
theorem mem_fillOrder (q : Fin k × Fin (P + 1) × Fin k) : q ∈ fillOrder P k := by simp [fillOrder]
theorem mem_writeOrderY (q : Fin k × Fin (P + 1)) : q ∈ writeOrderY P k := by simp [writeOrderY]
theorem mem_fillOrderY (q : Fin k × Fin (P + 1)) : q ∈ fillOrderY P k := by simp [fillOrderY]

theorem nodup_flatMap_map {α β γ : Type*} (l : List α) (g : α → List β) (f : α → β → γ) (hl : l.Nodup) (hg : ∀ a, (g a).Nodup)
    (hf : ∀ a b a' b', f a b = f a' b' → a = a' ∧ b = b') : (l.flatMap fun a => (g a).map (f a)).Nodup := by
  rw [List.nodup_flatMap]
  refine ⟨fun a _ => (hg a).map fun b b' h => (hf _ _ _ _ h).2, ?_⟩
  refine hl.imp ?_
  intro a a' hne
  rw [Function.onFun, List.disjoint_left]
  intro c hc hc'
  obtain ⟨b, _, rfl⟩ := List.mem_map.1 hc
  obtain ⟨b', _, h⟩ := List.mem_map.1 hc'
  exact hne (hf _ _ _ _ h).1.symm

theorem nodup_writeOrder : (writeOrder P k).Nodup := by
  have : writeOrder P k = (List.finRange k).flatMap fun k1 =>
      ((List.finRange (P + 1)).flatMap fun p => (List.finRange k).map fun k2 => (p, k2)).map fun r => (k1, r.1, r.2) := by
    simp [writeOrder, List.map_flatMap, Function.comp_def]
  rw [this]
  refine nodup_flatMap_map _ _ _ (List.nodup_finRange k) (fun _ => ?_) ?_
  · exact nodup_flatMap_map _ _ _ (List.nodup_finRange _) (fun _ => List.nodup_finRange k) (by simp)
  · rintro a ⟨b, c⟩ a' ⟨b', c'⟩ h; simpa using h

theorem nodup_fillOrder : (fillOrder P k).Nodup := by
  have : fillOrder P k = (List.finRange (P + 1)).flatMap fun p =>
      ((List.finRange k).flatMap fun k2 => (List.finRange k).map fun k1 => (k1, k2)).map fun r => (r.1, p, r.2) := by
    simp [fillOrder, List.map_flatMap, Function.comp_def]
  rw [this]
  refine nodup_flatMap_map _ _ _ (List.nodup_finRange _) (fun _ => ?_) ?_
  · exact nodup_flatMap_map _ _ _ (List.nodup_finRange _) (fun _ => List.nodup_finRange k) (by simp +contextual)
  · rintro a ⟨b, c⟩ a' ⟨b', c'⟩ h
    simp only [Prod.mk.injEq] at h ⊢
    tauto

theorem nodup_writeOrderY : (writeOrderY P k).Nodup :=
  nodup_flatMap_map _ _ _ (List.nodup_finRange k) (fun _ => List.nodup_finRange _) (by simp)

theorem nodup_fillOrderY : (fillOrderY P k).Nodup :=
  nodup_flatMap_map _ _ _ (List.nodup_finRange _) (fun _ => List.nodup_finRange k) (by simp +contextual)

theorem tableX_slot (x : Matrix (Fin n) (Fin k) ℝ) (nei : NeiRow n) (k1 : Fin k) (p : Fin (P + 1)) (k2 : Fin k) :
    tableX P x nei (slotRead P k k1 p k2) = (nei.map fun j => x j.1 k1 * scaG P p j.2 * x j.1 k2).sum := by
  rw [slotRead_eq_slotWrite]
  exact foldl_update (fun q : Fin k × Fin (P + 1) × Fin k => slotWrite P k q.1 q.2.1 q.2.2)
    (fun q => (nei.map fun j => x j.1 q.1 * scaG P q.2.1 j.2 * x j.1 q.2.2).sum) _ _
    (nodup_writeOrder.map C36_slots.2.1) (k1, p, k2) (mem_writeOrder _)

theorem tableY_slot (x : Matrix (Fin n) (Fin k) ℝ) (y : Fin n → ℝ) (nei : NeiRow n) (k1 : Fin k) (p : Fin (P + 1)) :
    tableY P x y nei (slotY k p k1) = (nei.map fun j => x j.1 k1 * scaG P p j.2 * y j.1).sum :=
  foldl_update (fun q : Fin k × Fin (P + 1) => slotY k q.2 q.1)
    (fun q => (nei.map fun j : Fin n × ℝ => x j.1 q.1 * scaG P q.2 j.2 * y j.1).sum) _ _
    (nodup_writeOrderY.map C36_slots.2.2.2) (k1, p) (mem_writeOrderY _)

theorem coefX_slot (R : Fin (P + 1) → ℝ) (k1 : Fin k) (p : Fin (P + 1)) (k2 : Fin k) :
    coefX P k R (slotRead P k k1 p k2) = R p := by
  refine foldl_update (fun q : Fin k × Fin (P + 1) × Fin k => slotRead P k q.1 q.2.1 q.2.2) (fun q => R q.2.1) _ _
    (nodup_fillOrder.map ?_) (k1, p, k2) (mem_fillOrder _)
  simpa only [slotRead_eq_slotWrite] using C36_slots.2.1

theorem coefY_slot (R : Fin (P + 1) → ℝ) (k1 : Fin k) (p : Fin (P + 1)) : coefY P k R (slotY k p k1) = R p :=
  foldl_update (fun q : Fin k × Fin (P + 1) => slotY k q.2 q.1) (fun q => R q.2) _ _
    (nodup_fillOrderY.map C36_slots.2.2.2) (k1, p) (mem_fillOrderY _)

theorem total_eq (P : ℕ) (b : ℝ) : ∑ p : Fin (P + 1), scaPow b p = ∑ q ∈ Finset.range (P + 1), b ^ (q + 1) := by
  rw [Finset.sum_range]; rfl

theorem total_pos (P : ℕ) {b : ℝ} (hb : 0 < b) : 0 < ∑ q ∈ Finset.range (P + 1), b ^ (q + 1) :=
  Finset.sum_pos (fun q _ => pow_pos hb _) ⟨0, by simp⟩

theorem polyKernel_eq (P : ℕ) (b g : ℝ) :
    polyKernel P b g = ∑ p : Fin (P + 1), scaPow b p / (∑ p : Fin (P + 1), scaPow b p) * scaG P p g := by
  have h : ∑ p : Fin (P + 1), scaPow b p * scaG P p g =
      b + ∑ q ∈ Finset.Icc 1 P, b ^ (q + 1) * g ^ ((2 : ℝ) ^ ((P : ℝ) / 2) / 2 ^ q) := by
    rw [← Finset.sum_range (f := fun p => scaPow b p * scaG P p g), Finset.range_eq_Ico, Finset.sum_eq_sum_Ico_succ_bot (Nat.succ_pos P)]
    congr 1
    · simp [scaPow, scaG]
    · refine Finset.sum_congr (by ext q; simp only [Finset.mem_Ico, Finset.mem_Icc]; omega) fun q hq => ?_
      have : q ≠ 0 := by simp at hq; omega
      simp [scaPow, scaG, this]
  unfold polyKernel
  rw [← h, ← total_eq, Finset.sum_div]
  exact Finset.sum_congr rfl fun p _ => by ring

theorem polyKernel_nonneg (P : ℕ) {b g : ℝ} (hb : 0 ≤ b) (hg : 0 ≤ g) : 0 ≤ polyKernel P b g := by
  unfold polyKernel
  refine div_nonneg (add_nonneg hb ?_) (Finset.sum_nonneg fun q _ => pow_nonneg hb _)
  exact Finset.sum_nonneg fun q _ => mul_nonneg (pow_nonneg hb _) (Real.rpow_nonneg hg _)

theorem polyKernel_pos (P : ℕ) {b g : ℝ} (hb : 0 < b) (hg : 0 ≤ g) : 0 < polyKernel P b g := by
  unfold polyKernel
  refine div_pos (add_pos_of_pos_of_nonneg hb ?_) (total_pos P hb)
  exact Finset.sum_nonneg fun q _ => mul_nonneg (pow_nonneg hb.le _) (Real.rpow_nonneg hg _)

theorem polyWeight_nonneg (P : ℕ) {b a : ℝ} (hb : 0 ≤ b) (ha : 0 ≤ a) {nei : NeiRow n} (hg : ∀ j ∈ nei, 0 ≤ j.2) (l : Fin n) :
    0 ≤ polyWeight P b a nei l := by
  refine add_nonneg ha (List.sum_nonneg ?_)
  intro v hv
  obtain ⟨j, hj, rfl⟩ := List.mem_map.1 hv
  exact polyKernel_nonneg P hb (hg j (List.mem_filter.1 hj).1)

/-- Summing over the list of neighbours is summing over the observations with their weights. -/
theorem sum_neighbours (P : ℕ) (b a : ℝ) (nei : NeiRow n) (f : Fin n → ℝ) :
    (nei.map fun j => polyKernel P b j.2 * f j.1).sum + a * ∑ l, f l = ∑ l, polyWeight P b a nei l * f l := by
  induction nei with
  | nil => simp [polyWeight, Finset.mul_sum]
  | cons j nei ih =>
    have e : ∀ l, polyWeight P b a (j :: nei) l = polyWeight P b a nei l + if j.1 = l then polyKernel P b j.2 else 0 := by
      intro l
      unfold polyWeight
      by_cases h : j.1 = l
      · rw [List.filter_cons_of_pos (by simpa using h)]; simp [h]; ring
      · rw [List.filter_cons_of_neg (by simpa using h)]; simp [h]
    simp only [e, add_mul, Finset.sum_add_distrib, ← ih, List.map_cons, List.sum_cons, ite_mul, zero_mul, Finset.sum_ite_eq,
      Finset.mem_univ, if_true]
    ring

theorem sum_map_sum {ι α : Type*} (s : Finset ι) (l : List α) (f : ι → α → ℝ) :
    ∑ p ∈ s, (l.map (f p)).sum = (l.map fun j => ∑ p ∈ s, f p j).sum := by
  induction l with
  | nil => simp
  | cons j l ih => simp [Finset.sum_add_distrib, ih]

theorem combine (P : ℕ) (b : ℝ) (nei : NeiRow n) (u v : Fin n → ℝ) :
    ∑ p : Fin (P + 1), scaPow b p / (∑ p : Fin (P + 1), scaPow b p) * (nei.map fun j => u j.1 * scaG P p j.2 * v j.1).sum =
      (nei.map fun j => polyKernel P b j.2 * (u j.1 * v j.1)).sum := by
  simp only [← List.sum_map_mul_left]
  rw [sum_map_sum]
  congr 1
  refine List.map_congr_left fun j _ => ?_
  rw [polyKernel_eq, Finset.sum_mul]
  exact Finset.sum_congr rfl fun p _ => by ring

theorem scaSystem_eq {x : Matrix (Fin n) (Fin k) ℝ} {y : Fin n → ℝ} {nei : NeiRow n} {b a : ℝ} (hb : 0 < b) :
    scaSystem P x y nei b a = .ok (xtwx x (polyWeight P b a nei), xtw x (polyWeight P b a nei) *ᵥ y) := by
  have ht : ∑ p : Fin (P + 1), scaPow b p ≠ 0 := by rw [total_eq]; exact (total_pos P hb).ne'
  unfold scaSystem
  simp only [ht, if_false, Res.ok.injEq, Prod.mk.injEq]
  constructor
  · ext k1 k2
    simp only [Matrix.add_apply, Matrix.of_apply, coefX_slot, tableX_slot, Matrix.smul_apply, smul_eq_mul, Matrix.mul_apply,
      Matrix.transpose_apply, combine P b nei (fun l => x l k1) (fun l => x l k2), xtwx_apply]
    rw [sum_neighbours P b a nei fun l => x l k1 * x l k2]
    exact Finset.sum_congr rfl fun l _ => by ring
  · ext k1
    simp only [Pi.add_apply, coefY_slot, tableY_slot, Pi.smul_apply, smul_eq_mul, mulVec, dotProduct,
      Matrix.transpose_apply, combine P b nei (fun l => x l k1) y, xtw, Matrix.of_apply]
    rw [sum_neighbours P b a nei fun l => x l k1 * y l]
    exact Finset.sum_congr rfl fun l _ => by ring

/-- **C36 (normal equations).** For every data, degree, positive scale, non-negative penalty and list of neighbours the combined tables are
the normal equations of the regression in which observation `l` has the weight `polyWeight … l`, and these weights are non-negative. -/
theorem C36_normal_equations (x : Matrix (Fin n) (Fin k) ℝ) (y : Fin n → ℝ) {nei : NeiRow n} {b a : ℝ} (hb : 0 < b) (ha : 0 ≤ a)
    (hg : ∀ j ∈ nei, 0 ≤ j.2) :
    (∀ l, 0 ≤ polyWeight P b a nei l) ∧ ∃ s, scaSystem P x y nei b a = .ok s ∧
      (∀ i j, s.1 i j = ∑ l, polyWeight P b a nei l * (x l i * x l j)) ∧
      ∀ i, s.2 i = ∑ l, polyWeight P b a nei l * (x l i * y l) := by
  refine ⟨polyWeight_nonneg P hb.le ha hg, _, scaSystem_eq hb, fun i j => ?_, fun i => ?_⟩
  · change xtwx x _ i j = _
    rw [xtwx_apply]; exact Finset.sum_congr rfl fun l _ => by ring
  · simp only [xtw, mulVec, dotProduct, Matrix.of_apply]; exact Finset.sum_congr rfl fun l _ => by ring

/-- With scale 0 the normalisation divides by 0 and nothing finite is produced. -/
theorem C36_scale_zero (x : Matrix (Fin n) (Fin k) ℝ) (y : Fin n → ℝ) (nei : NeiRow n) (a : ℝ) :
    scaSystem P x y nei 0 a = .nonfinite := by
  unfold scaSystem
  simp [scaPow]

open Classical in
theorem scaSolve_gram {x : Matrix (Fin n) (Fin k) ℝ} {w : Fin n → ℝ} (hw : ∀ l, 0 ≤ w l) (v : Fin k → ℝ) :
    scaSolve (xtwx x w) v = if (xtwx x w).PosDef then .ok ((xtwx x w)⁻¹ *ᵥ v) else .throw .singular := by
  have hg := invGeneral_gram x w hw
  unfold invGeneral invSympd at hg
  by_cases h : (xtwx x w).PosDef
  · have hu : IsUnit (xtwx x w).det := (isUnit_iff_isUnit_det _).1 h.isUnit
    have hT : IsUnit (xtwx x w)ᵀ.det := by rwa [det_transpose]
    have hu2 : IsUnit ((xtwx x w)ᵀ * xtwx x w).det := by rw [det_mul]; exact hT.mul hu
    unfold scaSolve invGeneral
    simp only [hu2, if_true, h, Res.bind]
    rw [Matrix.mul_inv_rev, mulVec_mulVec, Matrix.mul_assoc, nonsing_inv_mul _ hT, Matrix.mul_one]
  · have hu : ¬ IsUnit (xtwx x w).det := by
      intro hu; rw [if_pos hu, if_neg h] at hg; cases hg
    have hu2 : ¬ IsUnit ((xtwx x w)ᵀ * xtwx x w).det := by
      rw [det_mul, det_transpose]; exact fun hh => hu (isUnit_of_mul_isUnit_left hh)
    unfold scaSolve invGeneral
    simp only [hu2, if_false, h, Res.bind]

/-- **C36 (coefficients).** The coefficients of a location are the unique weighted least squares solution for these weights if the weighted
observations determine one, and are all 0 otherwise. -/
theorem C36_coefficients (x : Matrix (Fin n) (Fin k) ℝ) (y : Fin n → ℝ) {nei : NeiRow n} {b a : ℝ} (hb : 0 < b) (ha : 0 ≤ a)
    (hg : ∀ j ∈ nei, 0 ≤ j.2) :
    ∃ beta, scaFitRow P x y nei b a = .ok beta ∧
      (Determined x (polyWeight P b a nei) → IsWLS x y (polyWeight P b a nei) beta) ∧
      (¬ Determined x (polyWeight P b a nei) → beta = 0) := by
  have hw := polyWeight_nonneg P hb.le ha hg
  unfold scaFitRow
  rw [scaSystem_eq hb]
  simp only [Res.bind, scaSolve_gram hw]
  by_cases h : (xtwx x (polyWeight P b a nei)).PosDef
  · simp only [h, if_true]
    exact ⟨_, rfl, fun _ => isWLS_of_posDef h, fun hn => absurd ((gram_posDef_iff_determined x _ hw).1 h) hn⟩
  · simp only [h, if_false]
    exact ⟨_, rfl, fun hd => absurd ((gram_posDef_iff_determined x _ hw).2 hd) h, fun _ => rfl⟩

/-! ## C37 -/

theorem take_sorted_nearest {d : Fin n → ℝ} {σ : Equiv.Perm (Fin n)} (hσ : Sorts d σ) {cnt : ℕ} (hc : cnt ≤ n) :
    IsNearest d cnt ((List.ofFn σ).take cnt) := by
  have hnd : (List.ofFn σ).Nodup := List.nodup_ofFn.2 σ.injective
  have hpw : (List.ofFn σ).Pairwise fun a b => d a ≤ d b := by
    rw [List.pairwise_ofFn]
    exact fun i j h => hσ h.le
  refine ⟨(List.take_sublist _ _).nodup hnd, by simp [hc], hpw.sublist (List.take_sublist _ _), ?_⟩
  intro a ha b hb
  have hb' : b ∈ (List.ofFn σ).drop cnt := by
    have : b ∈ (List.ofFn σ).take cnt ++ (List.ofFn σ).drop cnt := by
      rw [List.take_append_drop, List.mem_ofFn]; exact ⟨σ.symm b, by simp⟩
    exact (List.mem_append.1 this).resolve_left hb
  rw [← List.take_append_drop cnt (List.ofFn σ), List.pairwise_append] at hpw
  exact hpw.2.2 a ha b hb'

theorem scaCount_le (bw : ℝ) (n : ℕ) : scaCount bw n ≤ n := by unfold scaCount; split <;> omega

theorem scaNearest_ok {σ : Equiv.Perm (Fin n)} {cnt : ℕ} (h0 : cnt ≠ 0) (h : cnt ≤ n) :
    scaNearest σ cnt = .ok ((List.ofFn σ).take cnt) := by
  unfold scaNearest; rw [if_neg h0, if_neg (by omega)]

/-- **C37 (lists for locations).** For every bandwidth of at least one point the list of a location holds the nearest observations in order of
distance, with their distances: as many as the bandwidth says, all if it is larger. -/
theorem C37_neighbours {σ : (Fin n → ℝ) → Equiv.Perm (Fin n)} (hσ : ∀ d, Sorts d (σ d)) (d : Fin n → ℝ) {bw : ℝ} (hbw : 1 ≤ bw)
    (hn : 0 < n) :
    ∃ row, scaNeighbours bw σ d = .ok row ∧ IsNearest d (min ⌊bw⌋₊ n) (row.map Prod.fst) ∧ ∀ j ∈ row, j.2 = d j.1 := by
  have h1 : 1 ≤ ⌊bw⌋₊ := Nat.one_le_floor_iff _ |>.2 hbw
  have hc : scaCount bw n = min ⌊bw⌋₊ n := by unfold scaCount; split <;> omega
  unfold scaNeighbours
  rw [scaNearest_ok (by omega) (scaCount_le bw n)]
  refine ⟨_, rfl, ?_, ?_⟩
  · rw [List.map_map, ← hc]
    simpa [Function.comp_def] using take_sorted_nearest (hσ d) (scaCount_le bw n)
  · intro j hj
    obtain ⟨i, _, rfl⟩ := List.mem_map.1 hj
    rfl

/-- **C37 (lists for the search).** With CV the list of point `i` holds one nearest point fewer than the bandwidth says; with AIC it holds the
point itself followed by the nearest points. -/
theorem C37_search_lists {σ : (Fin n → ℝ) → Equiv.Perm (Fin n)} (hσ : ∀ d, Sorts d (σ d)) (D : Fin n → Fin n → ℝ) (i : Fin n) {bw : ℝ} :
    (2 ≤ min ⌊bw⌋₊ n → ∃ row, scaDataNeighbours .CV bw σ D i = .ok row ∧
      IsNearest (D i) (min ⌊bw⌋₊ n - 1) (row.map Prod.fst) ∧ ∀ j ∈ row, j.2 = D i j.1) ∧
    (1 ≤ min ⌊bw⌋₊ n → ∃ row, scaDataNeighbours .AIC bw σ D i = .ok ((i, 0) :: row) ∧
      IsNearest (D i) (min ⌊bw⌋₊ n) (row.map Prod.fst) ∧ ∀ j ∈ row, j.2 = D i j.1) := by
  have hc : scaCount bw n = min ⌊bw⌋₊ n := by unfold scaCount; split <;> omega
  have hle := scaCount_le bw n
  constructor
  · intro h
    unfold scaDataNeighbours
    simp only
    rw [if_neg (by omega), scaNearest_ok (by omega) (by omega)]
    refine ⟨_, rfl, ?_, ?_⟩
    · rw [List.map_map, ← hc]
      simpa [Function.comp_def] using take_sorted_nearest (hσ (D i)) (cnt := scaCount bw n - 1) (by omega)
    · intro j hj
      obtain ⟨i, _, rfl⟩ := List.mem_map.1 hj
      rfl
  · intro h
    unfold scaDataNeighbours
    simp only
    rw [scaNearest_ok (by omega) hle]
    refine ⟨_, rfl, ?_, ?_⟩
    · rw [List.map_map, ← hc]
      simpa [Function.comp_def] using take_sorted_nearest (hσ (D i)) hle
    · intro j hj
      obtain ⟨i, _, rfl⟩ := List.mem_map.1 hj
      rfl

theorem rows_ok {σ : (Fin n → ℝ) → Equiv.Perm (Fin n)} (D : Fin n → Fin n → ℝ) (c : Crit) {bw : ℝ}
    (h : match c with | .CV => 2 ≤ scaCount bw n | .AIC => 1 ≤ scaCount bw n) :
    ∃ rows, Res.tabulate n (scaDataNeighbours c bw σ D) = .ok rows := by
  have hle := scaCount_le bw n
  have : ∀ i, ∃ r, scaDataNeighbours c bw σ D i = .ok r := by
    intro i
    cases c
    · simp only at h
      unfold scaDataNeighbours; simp only
      rw [if_neg (by omega), scaNearest_ok (by omega) (by omega)]; exact ⟨_, rfl⟩
    · simp only at h
      unfold scaDataNeighbours; simp only
      rw [scaNearest_ok (by omega) hle]; exact ⟨_, rfl⟩
  choose r hr using this
  exact ⟨r, Res.tabulate_eq_ok.2 hr⟩

/-- **C37 (failure).** With the CV criterion every bandwidth of 2 to 50 points that is smaller than the number of observations makes `fit()`
fail with an index out of bounds: it reads the distance column of the last neighbour, which the table for CV does not have. -/
theorem C37_cv_small_bandwidth_fails {σ : (Fin n → ℝ) → Equiv.Perm (Fin n)} (D : Fin n → Fin n → ℝ) {bw : ℝ}
    (h2 : 2 ≤ ⌊bw⌋₊) (h50 : ⌊bw⌋₊ ≤ 50) (hn : ⌊bw⌋₊ < n) : scaSetup .CV bw σ D = .throw .bounds := by
  have hc : scaCount bw n = ⌊bw⌋₊ := by unfold scaCount; rw [if_pos hn]
  have hb : scaBw bw n = ⌊bw⌋₊ := by unfold scaBw; rw [if_neg (by omega)]
  obtain ⟨rows, hr⟩ := rows_ok (σ := σ) D .CV (bw := bw) (by simp only; omega)
  unfold scaSetup
  rw [hr]
  simp only [Res.bind, scaBandColumn, hc, hb]
  rw [if_neg (by omega), if_neg (by omega)]

/-- **C37 (what works), partial.** The start of `fit()` succeeds with AIC for at least two observations and every bandwidth of at least one
point; with CV only if the bandwidth is above 50 points or not below the number of observations. Missing from the property: the other
bandwidths with CV, for which it is false (`C37_cv_small_bandwidth_fails`). -/
theorem C37_works_partial {σ : (Fin n → ℝ) → Equiv.Perm (Fin n)} (D : Fin n → Fin n → ℝ) {bw : ℝ} (hn : 2 ≤ n) :
    (1 ≤ ⌊bw⌋₊ → ∃ r, scaSetup .AIC bw σ D = .ok r) ∧
    (50 < ⌊bw⌋₊ ∨ n ≤ ⌊bw⌋₊ → ∃ r, scaSetup .CV bw σ D = .ok r) := by
  have hc : scaCount bw n = min ⌊bw⌋₊ n := by unfold scaCount; split <;> omega
  have hb : scaBw bw n = min ⌊bw⌋₊ (n - 1) := by unfold scaBw; split <;> omega
  constructor
  · intro h
    obtain ⟨rows, hr⟩ := rows_ok (σ := σ) D .AIC (bw := bw) (by simp only; omega)
    unfold scaSetup
    rw [hr]
    simp only [Res.bind, scaBandColumn, hc, hb]
    rw [if_neg (by omega), if_pos (by omega)]
    exact ⟨_, rfl⟩
  · intro h
    obtain ⟨rows, hr⟩ := rows_ok (σ := σ) D .CV (bw := bw) (by simp only; omega)
    unfold scaSetup
    rw [hr]
    simp only [Res.bind, scaBandColumn, hc, hb]
    rw [if_neg (by omega), if_pos (by omega)]
    exact ⟨_, rfl⟩

/-- **C39 for scalable regression: refuted.** With CV, 3 to 51 observations and a bandwidth of at least their number, the first `fit()` starts
and lowers the stored bandwidth to one less than the number of observations; the second `fit()` on the same object then fails. -/
theorem C39_scalable_second_fit_fails {σ : (Fin n → ℝ) → Equiv.Perm (Fin n)} (D : Fin n → Fin n → ℝ) {bw : ℝ} (h3 : 3 ≤ n) (h51 : n ≤ 51)
    (hbw : (n : ℝ) ≤ bw) :
    (∃ r, scaSetup .CV bw σ D = .ok r) ∧ scaSetup .CV (scaBw bw n) σ D = .throw .bounds := by
  have hf : n ≤ ⌊bw⌋₊ := Nat.le_floor hbw
  refine ⟨(C37_works_partial D (by omega)).2 (Or.inr hf), ?_⟩
  have e : scaBw bw n = n - 1 := by unfold scaBw; rw [if_pos hf]
  rw [e]
  exact C37_cv_small_bandwidth_fails D (by rw [Nat.floor_natCast]; omega) (by rw [Nat.floor_natCast]; omega)
    (by rw [Nat.floor_natCast]; omega)

/-! ## C67 -/

/-- **C67 (CV), refuted.** When the distance of a point to itself is smaller than to every other point, its own observation is in the list that
the CV criterion uses to predict it, and its weight there is positive whatever the parameters. -/
theorem C67_own_point_used {σ : (Fin n → ℝ) → Equiv.Perm (Fin n)} (hσ : ∀ d, Sorts d (σ d)) (D : Fin n → Fin n → ℝ) (i : Fin n)
    (hD : ∀ j, j ≠ i → D i i < D i j) {bw : ℝ} (h : 2 ≤ min ⌊bw⌋₊ n) {row : NeiRow n}
    (hr : scaDataNeighbours .CV bw σ D i = .ok row) :
    i ∈ row.map Prod.fst ∧ ∀ (g : ℝ → ℝ), (∀ d, 0 ≤ g d) → ∀ b a : ℝ, 0 < b → 0 ≤ a →
      0 < polyWeight P b a (row.map fun j => (j.1, g j.2)) i := by
  obtain ⟨row', hr', hnear, _⟩ := (C37_search_lists hσ D i (bw := bw)).1 h
  obtain rfl : row = row' := by rw [hr] at hr'; exact Res.ok.inj hr'
  have hi : i ∈ row.map Prod.fst := by
    by_contra hi
    have hlen := hnear.length
    obtain ⟨c, hc⟩ : ∃ c, c ∈ row.map Prod.fst := by
      apply List.exists_mem_of_length_pos; omega
    have hne : c ≠ i := fun e => hi (e ▸ hc)
    exact absurd (hnear.nearest c hc i hi) (not_le.2 (hD c hne))
  refine ⟨hi, fun g hg b a hb ha => ?_⟩
  obtain ⟨j, hj, hji⟩ := List.mem_map.1 hi
  unfold polyWeight
  refine add_pos_of_nonneg_of_pos ha ?_
  refine lt_of_lt_of_le (polyKernel_pos P hb (hg j.2)) (List.single_le_sum ?_ _ ?_)
  · intro v hv
    obtain ⟨q, hq, rfl⟩ := List.mem_map.1 hv
    obtain ⟨q', _, rfl⟩ := List.mem_map.1 (List.mem_filter.1 hq).1
    exact polyKernel_nonneg P hb.le (hg _)
  · refine List.mem_map.2 ⟨(j.1, g j.2), List.mem_filter.2 ⟨List.mem_map.2 ⟨j, hj, rfl⟩, by simpa using hji⟩, rfl⟩

/-- **C67 (AIC), refuted.** With AIC the own observation is listed twice. -/
theorem C67_own_point_twice {σ : (Fin n → ℝ) → Equiv.Perm (Fin n)} (hσ : ∀ d, Sorts d (σ d)) (D : Fin n → Fin n → ℝ) (i : Fin n)
    (hD : ∀ j, j ≠ i → D i i < D i j) {bw : ℝ} (h : 1 ≤ min ⌊bw⌋₊ n) {row : NeiRow n}
    (hr : scaDataNeighbours .AIC bw σ D i = .ok row) : (row.map Prod.fst).count i = 2 := by
  obtain ⟨row', hr', hnear, _⟩ := (C37_search_lists hσ D i (bw := bw)).2 h
  obtain rfl : row = (i, 0) :: row' := by rw [hr] at hr'; exact Res.ok.inj hr'
  have hi : i ∈ row'.map Prod.fst := by
    by_contra hi
    have hlen := hnear.length
    obtain ⟨c, hc⟩ : ∃ c, c ∈ row'.map Prod.fst := by
      apply List.exists_mem_of_length_pos; omega
    have hne : c ≠ i := fun e => hi (e ▸ hc)
    exact absurd (hnear.nearest c hc i hi) (not_le.2 (hD c hne))
  rw [List.map_cons, List.count_cons_self, List.count_eq_one_of_mem hnear.nodup hi]

/-! ## C68 -/

theorem scaTraceRow_eq {x : Matrix (Fin n) (Fin k) ℝ} {y : Fin n → ℝ} {nei : NeiRow n} {b a : ℝ} (hb : 0 < b) (i : Fin n)
    (h : (xtwx x (polyWeight P b a nei)).PosDef) :
    scaTraceRow P x y nei b a i = .ok (x i ⬝ᵥ (((xtwx x (polyWeight P b a nei))⁻¹ * (xtwx x (polyWeight P b a nei))⁻¹ᵀ) *ᵥ x i)) := by
  have hu : IsUnit (xtwx x (polyWeight P b a nei)).det := (isUnit_iff_isUnit_det _).1 h.isUnit
  have hT : IsUnit (xtwx x (polyWeight P b a nei))ᵀ.det := by rwa [det_transpose]
  have hu2 : IsUnit ((xtwx x (polyWeight P b a nei))ᵀ * xtwx x (polyWeight P b a nei)).det := by rw [det_mul]; exact hT.mul hu
  unfold scaTraceRow
  rw [scaSystem_eq hb]
  simp only [Res.bind, invGeneral, hu2, if_true]
  rw [Matrix.mul_inv_rev, transpose_nonsing_inv]

theorem xtwx_scale (c : ℝ) (x : Matrix (Fin n) (Fin k) ℝ) (w : Fin n → ℝ) : xtwx (c • x) w = c ^ 2 • xtwx x w := by
  ext i j
  simp only [xtwx_apply, Matrix.smul_apply, smul_eq_mul, Finset.mul_sum]
  exact Finset.sum_congr rfl fun l _ => by ring

theorem posDef_smul_iff {c : ℝ} (hc : c ≠ 0) (x : Matrix (Fin n) (Fin k) ℝ) (w : Fin n → ℝ) (h : (xtwx x w).PosDef) :
    (xtwx (c • x) w).PosDef := by
  rw [xtwx_scale]
  exact h.smul (by positivity)

theorem inv_smul_gram {c : ℝ} (hc : c ≠ 0) {x : Matrix (Fin n) (Fin k) ℝ} {w : Fin n → ℝ} (h : (xtwx x w).PosDef) :
    (xtwx (c • x) w)⁻¹ = (c ^ 2)⁻¹ • (xtwx x w)⁻¹ := by
  rw [xtwx_scale]
  have hu : IsUnit (xtwx x w).det := (isUnit_iff_isUnit_det _).1 h.isUnit
  apply Matrix.inv_eq_left_inv
  rw [smul_mul_smul_comm, nonsing_inv_mul _ hu, inv_mul_cancel₀ (by positivity), one_smul]

theorem leverage_eq (x : Matrix (Fin n) (Fin k) ℝ) (w : Fin n → ℝ) (i : Fin n) :
    leverage x w i = x i ⬝ᵥ ((xtwx x w)⁻¹ *ᵥ x i) * w i := by
  have : (Matrix.of fun a b => ∑ l, x l a * w l * x l b : Matrix (Fin k) (Fin k) ℝ) = xtwx x w := by ext a b; rfl
  unfold leverage; rw [this]

/-- **C68, refuted.** Expressing the explanatory variables in other units (multiplying them by `c`) leaves the leverage of an observation, the
diagonal element of the hat matrix, unchanged, but divides what the program adds to the reported trace by `c²`. -/
theorem C68_trace_depends_on_units {c : ℝ} (hc : c ≠ 0) {x : Matrix (Fin n) (Fin k) ℝ} (y : Fin n → ℝ) {nei : NeiRow n} {b a : ℝ}
    (hb : 0 < b) (ha : 0 ≤ a) (hg : ∀ j ∈ nei, 0 ≤ j.2) (hd : Determined x (polyWeight P b a nei)) (i : Fin n) (hi : x i ≠ 0) :
    leverage (c • x) (polyWeight P b a nei) i = leverage x (polyWeight P b a nei) i ∧
    ∃ t, 0 < t ∧ scaTraceRow P x y nei b a i = .ok t ∧ scaTraceRow P (c • x) y nei b a i = .ok (t / c ^ 2) := by
  have hw := polyWeight_nonneg P hb.le ha hg
  have h := (gram_posDef_iff_determined x _ hw).2 hd
  have h' := posDef_smul_iff hc x _ h
  have hrow : (c • x) i = c • x i := rfl
  constructor
  · rw [leverage_eq, leverage_eq, inv_smul_gram hc h, hrow, smul_mulVec, mulVec_smul, smul_dotProduct, dotProduct_smul, dotProduct_smul]
    simp only [smul_eq_mul]
    field_simp
  · refine ⟨_, ?_, scaTraceRow_eq hb i h, ?_⟩
    · have hu : IsUnit (xtwx x (polyWeight P b a nei)).det := (isUnit_iff_isUnit_det _).1 h.isUnit
      rw [← mulVec_mulVec, dotProduct_mulVec, ← mulVec_transpose]
      have hne : (xtwx x (polyWeight P b a nei))⁻¹ᵀ *ᵥ x i ≠ 0 := by
        intro h0
        apply hi
        have : (xtwx x (polyWeight P b a nei))ᵀ *ᵥ ((xtwx x (polyWeight P b a nei))⁻¹ᵀ *ᵥ x i) = x i := by
          rw [mulVec_mulVec, ← transpose_mul, nonsing_inv_mul _ hu, transpose_one, one_mulVec]
        rw [← this, h0, mulVec_zero]
      exact lt_of_le_of_ne (Finset.sum_nonneg fun l _ => mul_self_nonneg _)
        (fun e => hne (dotProduct_self_eq_zero.1 e.symm))
    · rw [scaTraceRow_eq hb i h', inv_smul_gram hc h, hrow, transpose_smul, smul_mul_smul_comm, smul_mulVec, mulVec_smul,
        smul_dotProduct, dotProduct_smul, dotProduct_smul]
      simp only [smul_eq_mul, Res.ok.injEq]
      field_simp

/-! ## C69 -/

/-- **C69, refuted.** The weight that the exponential kernel gives is a Gaussian of the distance, `exp(-(3d/m)²)` for the median `m`; it is the
exponential `exp(-d/(m/3))` only at distance 0 and at distance `m/3`. -/
theorem C69_exponential_is_gaussian {m d : ℝ} (hm : 0 < m) :
    ∃ w, scaBaseWeight .Exponential m d = some (.ok w) ∧ w = Real.exp (-(3 * d / m) ^ 2) ∧
      scaBaseWeight .Gaussian (m / Real.sqrt 3) d = some (.ok w) ∧
      (w = Real.exp (-(d / (m / 3))) ↔ d = 0 ∨ d = m / 3) := by
  have h3 : (0 : ℝ) < Real.sqrt 3 := Real.sqrt_pos.2 (by norm_num)
  have hs : Real.sqrt 3 * Real.sqrt 3 = 3 := Real.mul_self_sqrt (by norm_num)
  have hm3 : m / 3 ≠ 0 := by positivity
  refine ⟨_, ?_, rfl, ?_, ?_⟩
  · unfold scaBaseWeight fdiv
    simp only [hm3, if_false, Res.bind, (by norm_num : (3 : ℝ) ≠ 0)]
    congr 3
    field_simp
  · unfold scaBaseWeight fdiv
    have e : m / Real.sqrt 3 / Real.sqrt 3 = m / 3 := by rw [div_div, hs]
    simp only [h3.ne', if_false, Res.bind, e, hm3]
    congr 3
    field_simp
  · rw [Real.exp_eq_exp]
    have e : 3 * d / m = d / (m / 3) := by field_simp
    rw [e]
    have : d / (m / 3) = 0 ∨ d / (m / 3) = 1 ↔ d = 0 ∨ d = m / 3 := by
      rw [div_eq_zero_iff, div_eq_one_iff_eq hm3]; simp [hm3]
    rw [← this]
    constructor
    · intro h
      have : d / (m / 3) * (d / (m / 3) - 1) = 0 := by linarith [sq (d / (m / 3))]
      rcases mul_eq_zero.1 this with h | h
      · exact Or.inl h
      · exact Or.inr (by linarith)
    · rintro (h | h) <;> rw [h] <;> norm_num

/-! ## Non-vacuity -/

/-- Three observations on a line, one neighbour list with two different neighbours: C36 and C68 apply. -/
noncomputable def exNei : NeiRow 3 := [(0, 1), (1, 1 / 2)]

example : ∃ beta, scaFitRow 4 exX (fun l => (l.val : ℝ) ^ 2) exNei 1 (1 / 100) = .ok beta ∧
    IsWLS exX (fun l => (l.val : ℝ) ^ 2) (polyWeight 4 1 (1 / 100) exNei) beta := by
  have hg : ∀ j ∈ exNei, (0 : ℝ) ≤ j.2 := by simp [exNei]
  obtain ⟨beta, h1, h2, _⟩ := C36_coefficients (P := 4) exX (fun l => (l.val : ℝ) ^ 2) (by norm_num : (0 : ℝ) < 1) (by norm_num : (0 : ℝ) ≤ 1 / 100) hg
  refine ⟨beta, h1, h2 ?_⟩
  intro b hb
  refine exX_determined (fun _ => 1) (fun _ => one_pos) b fun l _ => hb l ?_
  refine add_pos_of_pos_of_nonneg (by norm_num) (List.sum_nonneg fun v hv => ?_)
  obtain ⟨j, hj, rfl⟩ := List.mem_map.1 hv
  exact polyKernel_nonneg 4 (by norm_num) (hg j (List.mem_filter.1 hj).1)

/-- Ten points, bandwidth 5: the hypotheses of the failure hold; with 60 points and bandwidth 55 the search works. -/
example (D : Fin 10 → Fin 10 → ℝ) : scaSetup .CV 5 Tuple.sort D = .throw .bounds :=
  C37_cv_small_bandwidth_fails D (by norm_num) (by norm_num) (by norm_num)

example (D : Fin 60 → Fin 60 → ℝ) : ∃ r, scaSetup .CV 55 Tuple.sort D = .ok r :=
  (C37_works_partial D (by norm_num)).2 (Or.inl (by norm_num))

/-- Points 0, 1, 2, 3 on a line: the own point is in the list used for CV. -/
example : ∃ row, scaDataNeighbours .CV 3 Tuple.sort (fun i j : Fin 4 => |(i.val : ℝ) - j.val|) 2 = .ok row ∧ (2 : Fin 4) ∈ row.map Prod.fst := by
  obtain ⟨row, h, _⟩ := (C37_search_lists (n := 4) ex_sorts (fun i j : Fin 4 => |(i.val : ℝ) - j.val|) 2 (bw := 3)).1 (by norm_num)
  refine ⟨row, h, (C67_own_point_used (P := 4) ex_sorts _ 2 ?_ (by norm_num) h).1⟩
  intro j hj
  simp only [sub_self, abs_zero, abs_pos, sub_ne_zero]
  intro e
  exact hj (Fin.ext (by exact_mod_cast e.symm))

end Verif.Props

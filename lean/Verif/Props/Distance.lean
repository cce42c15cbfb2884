import Verif.Lemmas.Distance
import Verif.Spec.Distance

/-!
# C07–C12: properties of the distance classes
-/

namespace Verif.Props
open Verif Verif.Model Verif.Spec

/-- **C07.** A planar distance object given an `n × 2` coordinate matrix as focus and data points answers every query
`i < n` with `n` distances which form a metric on the coordinates: non-negative, symmetric, zero exactly for equal
coordinates, triangle inequality. -/
theorem C07_planar_metric (d : CRSDistance) (hg : d.mGeographic = false) (c : DynMat) (hc : c.nCols = 2) :
    ∃ D : ℕ → ℕ → ℝ,
      (∀ i, i < c.nRows →
        (d.makeParameter [.mat c, .mat c]).1.distance i = .ok ((List.range c.nRows).map (D i))) ∧
      (∀ i j, 0 ≤ D i j) ∧ (∀ i j, D i j = D j i) ∧ (∀ i j k, D i k ≤ D i j + D j k) ∧
      (∀ i j, D i j = 0 ↔ c.val i 0 = c.val j 0 ∧ c.val i 1 = c.val j 1) ∧
      (∀ i j, D i j ^ 2 = (c.val i 0 - c.val j 0) ^ 2 + (c.val i 1 - c.val j 1) ^ 2) := by
  refine ⟨fun i j => euclid (c.val i) (c.val j), ?_, ?_, ?_, ?_, ?_, ?_⟩
  · intro i hi
    simp only [CRSDistance.makeParameter, DistParam.getMat, hc, and_self, if_true, CRSDistance.distance, if_pos hi, hg]
    exact crsDistRow_planar c c i
  · exact fun i j => euclid_nonneg _ _
  · exact fun i j => euclid_comm _ _
  · exact fun i j k => euclid_triangle _ _ _
  · exact fun i j => euclid_eq_zero _ _
  · intro i j
    simp only [euclid]
    rw [Real.sq_sqrt (by nlinarith [sq_nonneg (c.val j 0 - c.val i 0), sq_nonneg (c.val j 1 - c.val i 1)])]
    ring

/-- **C07 (rigid motions).** Rotating and translating all focus and data points changes no planar distance. -/
theorem C07_rigid_invariant (fp dp fp' dp' : DynMat) (θ tx ty : ℝ)
    (hf : fp'.nRows = fp.nRows ∧ ∀ i, fp'.val i = rigid θ tx ty (fp.val i))
    (hd : dp'.nRows = dp.nRows ∧ ∀ i, dp'.val i = rigid θ tx ty (dp.val i)) (focus : ℕ) :
    (⟨false, some (fp', dp')⟩ : CRSDistance).distance focus = (⟨false, some (fp, dp)⟩ : CRSDistance).distance focus := by
  simp only [CRSDistance.distance, hf.1]
  split
  · rw [crsDistRow_planar, crsDistRow_planar, hd.1]
    congr 1
    apply List.map_congr_left
    intro j _
    rw [hf.2, hd.2, ← euclid_rotate θ (fp.val focus) (dp.val j)]
    unfold euclid rigid rotate
    simp only [if_true, one_ne_zero, if_false]
    congr 1
    ring
  · rfl

/-- A concrete coordinate matrix meeting the hypotheses: three points. -/
def exampleCoords : DynMat := ⟨3, 2, fun i k => if k = 0 then (i : ℝ) else 2 * (i : ℝ)⟩

example : exampleCoords.nCols = 2 := rfl

/-- **C08 (planar).** With at least one focus and one data point, `maxDistance` is an upper bound of every distance and
attained; `minDistance` is a lower bound and attained (all distances of doubles being at most `DBL_MAX`). -/
theorem C08_max_min_sharp (fp dp : DynMat) (hf : 0 < fp.nRows) (hd : 0 < dp.nRows)
    (hmax : ∀ i < fp.nRows, ∀ j < dp.nRows, euclid (fp.val i) (dp.val j) ≤ dblMax) :
    ∃ M m, (⟨false, some (fp, dp)⟩ : CRSDistance).maxDistance = .ok M ∧
      (⟨false, some (fp, dp)⟩ : CRSDistance).minDistance = .ok m ∧
      (∀ i l, (⟨false, some (fp, dp)⟩ : CRSDistance).distance i = .ok l → ∀ x ∈ l, m ≤ x ∧ x ≤ M) ∧
      (∃ i l, (⟨false, some (fp, dp)⟩ : CRSDistance).distance i = .ok l ∧ M ∈ l) ∧
      (∃ i l, (⟨false, some (fp, dp)⟩ : CRSDistance).distance i = .ok l ∧ m ∈ l) := by
  have hne : (List.range dp.nRows).map (fun j => euclid (fp.val 0) (dp.val j)) ≠ [] := by
    simp only [ne_eq, List.map_eq_nil_iff, List.range_eq_nil]; omega
  have htot : ∀ i ∈ List.range fp.nRows, ∃ l, crsDistRow false fp dp i = .ok l ∧ l ≠ [] := by
    intro i _
    refine ⟨_, crsDistRow_planar fp dp i, ?_⟩
    simp only [ne_eq, List.map_eq_nil_iff, List.range_eq_nil]; omega
  obtain ⟨M, hM⟩ := maxLoop_total 0 htot
  obtain ⟨m, hm⟩ := minLoop_total dblMax htot
  obtain ⟨M1, M2, M3⟩ := maxLoop_spec hM
  obtain ⟨m1, m2, m3⟩ := minLoop_spec hm
  have hdist : ∀ i, (⟨false, some (fp, dp)⟩ : CRSDistance).distance i =
      if i < fp.nRows then crsDistRow false fp dp i else .throw .runtime := fun i => rfl
  have h0mem : euclid (fp.val 0) (dp.val 0) ∈ (List.range dp.nRows).map (fun j => euclid (fp.val 0) (dp.val j)) :=
    List.mem_map.2 ⟨0, by simpa using hd, rfl⟩
  have h0 : (0 : ℕ) ∈ List.range fp.nRows := by simpa using hf
  refine ⟨M, m, hM, hm, ?_, ?_, ?_⟩
  · intro i l hl x hx
    rw [hdist] at hl
    split at hl
    · rename_i hi
      obtain ⟨l1, e1, -, b1⟩ := M2 i (by simpa using hi)
      obtain ⟨l2, e2, -, b2⟩ := m2 i (by simpa using hi)
      rw [hl] at e1 e2
      have e1 := Res.ok.inj e1
      have e2 := Res.ok.inj e2
      subst e1 e2
      exact ⟨b2 x hx, b1 x hx⟩
    · cases hl
  · rcases M3 with h | ⟨i, hi, l, hl, hMl⟩
    · -- the maximum is 0: then the distance (0,0), which is at least 0, equals it
      refine ⟨0, _, by rw [hdist, if_pos hf]; exact crsDistRow_planar fp dp 0, ?_⟩
      obtain ⟨l1, e1, -, b1⟩ := M2 0 h0
      rw [crsDistRow_planar] at e1
      have e1 := Res.ok.inj e1
      have := b1 _ (e1 ▸ h0mem)
      have h2 := euclid_nonneg (fp.val 0) (dp.val 0)
      have : M = euclid (fp.val 0) (dp.val 0) := by linarith
      rw [this]; exact h0mem
    · refine ⟨i, l, ?_, hMl⟩
      rw [hdist, if_pos (by simpa using hi)]; exact hl
  · rcases m3 with h | ⟨i, hi, l, hl, hml⟩
    · refine ⟨0, _, by rw [hdist, if_pos hf]; exact crsDistRow_planar fp dp 0, ?_⟩
      obtain ⟨l1, e1, -, b1⟩ := m2 0 h0
      rw [crsDistRow_planar] at e1
      have e1 := Res.ok.inj e1
      have := b1 _ (e1 ▸ h0mem)
      have h2 := hmax 0 hf 0 hd
      have : m = euclid (fp.val 0) (dp.val 0) := by linarith
      rw [this]; exact h0mem
    · refine ⟨i, l, ?_, hml⟩
      rw [hdist, if_pos (by simpa using hi)]; exact hl

/-- Without data points (but with a focus point) both raise an exception, as does an object without parameter. -/
theorem C08_max_min_errors (fp dp : DynMat) (g : Bool) (hf : 0 < fp.nRows) (hd : dp.nRows = 0) :
    (⟨g, some (fp, dp)⟩ : CRSDistance).maxDistance = .throw .empty ∧
    (⟨g, some (fp, dp)⟩ : CRSDistance).minDistance = .throw .empty ∧
    (⟨g, none⟩ : CRSDistance).maxDistance = .throw .runtime ∧
    (⟨g, none⟩ : CRSDistance).minDistance = .throw .runtime := by
  obtain ⟨k, hk⟩ : ∃ k, fp.nRows = k + 1 := ⟨fp.nRows - 1, by omega⟩
  refine ⟨?_, ?_, rfl, rfl⟩
  · simp [CRSDistance.maxDistance, hk, List.range_succ_eq_map, maxLoop, crsDistRow, hd, mapRes, Res.bind, listMax]
  · simp [CRSDistance.minDistance, hk, List.range_succ_eq_map, minLoop, crsDistRow, hd, mapRes, Res.bind, listMin]

/-! ### C09 -/

/-- Public calls on a planar / geographic distance object that matter for its state. -/
inductive CRSOp
  | make (plist : List DistParam) | setGeographic (g : Bool) | query (focus : ℕ) | clone

/-- The object after a call (`clone` continues with the copy; queries do not change the object). -/
def CRSOp.step (d : CRSDistance) : CRSOp → CRSDistance
  | .make plist => (d.makeParameter plist).1
  | .setGeographic g => d.setGeographic g
  | .query _ => d
  | .clone => d.clone

/-- The argument lists of the `makeParameter` calls of a history. -/
def makes (ops : List CRSOp) : List (List DistParam) :=
  ops.filterMap fun
    | .make p => some p
    | _ => none

theorem inForce_snoc {α : Type*} (v : List DistParam → Verdict α) (cs : List (List DistParam)) (c : List DistParam) :
    inForce v (cs ++ [c]) = match v c with
      | .accept a => some a
      | .reject => none
      | .typeError => inForce v cs := by
  have h1 : inForce v (cs ++ [c]) = inForce.go v (cs ++ [c]).reverse := by
    cases cs <;> rfl
  have h2 : inForce v cs = inForce.go v cs.reverse := by
    cases cs <;> rfl
  rw [h1, h2, List.reverse_append]
  simp only [List.reverse_cons, List.reverse_nil, List.nil_append, List.cons_append, inForce.go]
  cases v c <;> rfl

theorem crs_clone_eq (d : CRSDistance) : d.clone = d := by
  obtain ⟨g, p⟩ := d
  cases p <;> rfl

theorem crs_make_param (d : CRSDistance) (p : List DistParam) :
    (d.makeParameter p).1.mParameter = match crsVerdict p with
      | .accept a => some a
      | .reject => none
      | .typeError => d.mParameter := by
  unfold CRSDistance.makeParameter crsVerdict
  match p with
  | [] => rfl
  | [_] => cases ‹DistParam› <;> rfl
  | [a, b] =>
    cases a <;> cases b <;> simp only [DistParam.getMat]
    split <;> rfl
  | a :: b :: c :: t => cases a <;> cases b <;> rfl

theorem crs_make_outcome (d : CRSDistance) (p : List DistParam) :
    (d.makeParameter p).2 = match crsVerdict p with
      | .accept _ => .ok ()
      | .reject => .throw .runtime
      | .typeError => .throw .variant := by
  unfold CRSDistance.makeParameter crsVerdict
  match p with
  | [] => rfl
  | [_] => cases ‹DistParam› <;> rfl
  | [a, b] =>
    cases a <;> cases b <;> simp only [DistParam.getMat]
    split <;> rfl
  | a :: b :: c :: t => cases a <;> cases b <;> rfl

theorem crs_run_param (d0 : CRSDistance) (h0 : d0.mParameter = none) (ops : List CRSOp) :
    (ops.foldl CRSOp.step d0).mParameter = inForce crsVerdict (makes ops) := by
  induction ops using List.reverseRecOn with
  | nil => simpa [makes, inForce] using h0
  | append_singleton ops op ih =>
    rw [List.foldl_append]
    simp only [List.foldl_cons, List.foldl_nil]
    cases op with
    | make p =>
      have : makes (ops ++ [CRSOp.make p]) = makes ops ++ [p] := by simp [makes]
      rw [this, inForce_snoc]
      simp only [CRSOp.step]
      rw [crs_make_param, ih]
      cases crsVerdict p <;> rfl
    | setGeographic g =>
      have : makes (ops ++ [CRSOp.setGeographic g]) = makes ops := by simp [makes]
      rw [this, ← ih]; rfl
    | query f =>
      have : makes (ops ++ [CRSOp.query f]) = makes ops := by simp [makes]
      rw [this, ← ih]; rfl
    | clone =>
      have : makes (ops ++ [CRSOp.clone]) = makes ops := by simp [makes]
      rw [this, ← ih]; simp only [CRSOp.step, crs_clone_eq]

/-- **C09.** After every history of calls on a fresh planar / geographic distance object: if no parameter is in force a
query throws; if one is in force, a query at or beyond the number of focus points throws and any answer has one entry per data
point; in the planar case every query below the number of focus points is answered. -/
theorem C09_query_protocol (g : Bool) (ops : List CRSOp) (focus : ℕ) :
    let d := ops.foldl CRSOp.step (CRSDistance.new g)
    match inForce crsVerdict (makes ops) with
    | none => d.distance focus = .throw .runtime
    | some (fp, dp) =>
      (fp.nRows ≤ focus → d.distance focus = .throw .runtime) ∧
      (∀ l, d.distance focus = .ok l → l.length = dp.nRows) ∧
      (d.mGeographic = false → focus < fp.nRows → ∃ l, d.distance focus = .ok l) := by
  intro d
  have hp : d.mParameter = inForce crsVerdict (makes ops) := crs_run_param _ rfl ops
  cases h : inForce crsVerdict (makes ops) with
  | none => rw [h] at hp; simp [CRSDistance.distance, hp]
  | some fd =>
    obtain ⟨fp, dp⟩ := fd
    rw [h] at hp
    simp only
    refine ⟨fun hf => ?_, fun l hl => ?_, fun hg hf => ?_⟩
    · simp only [CRSDistance.distance, hp, if_neg (not_lt.2 hf)]
    · simp only [CRSDistance.distance, hp] at hl
      split at hl
      · have := mapRes_length hl
        simpa using this
      · cases hl
    · simp only [CRSDistance.distance, hp, if_pos hf, hg]
      exact ⟨_, crsDistRow_planar fp dp focus⟩

/-- **C09 (reporting).** `makeParameter` returns normally exactly for accepted argument lists; a rejected or ill-typed one is
reported as an exception. -/
theorem C09_make_reports (d : CRSDistance) (p : List DistParam) :
    ((d.makeParameter p).2 = .ok () ↔ ∃ a, crsVerdict p = .accept a) := by
  rw [crs_make_outcome]
  cases h : crsVerdict p <;> simp

example : inForce crsVerdict (makes [.make [.mat exampleCoords, .mat exampleCoords], .make [.uword 3, .uword 4], .query 1]) =
    some (exampleCoords, exampleCoords) := by
  rfl

/-- Public calls on a one-dimensional distance object. -/
inductive OneDimOp
  | make (plist : List DistParam) | query (focus : ℕ)

def OneDimOp.step (d : OneDimDistance) : OneDimOp → OneDimDistance
  | .make p => (d.makeParameter p).1
  | .query _ => d

def oneDimMakes (ops : List OneDimOp) : List (List DistParam) :=
  ops.filterMap fun
    | .make p => some p
    | _ => none

/-- **C09 (one-dimensional distance).** The same protocol. -/
theorem C09_oneDim_protocol (ops : List OneDimOp) (focus : ℕ) :
    let d := ops.foldl OneDimOp.step ⟨none⟩
    match inForce oneDimVerdict (oneDimMakes ops) with
    | none => d.distance focus = .throw .runtime
    | some (fp, dp) =>
      (fp.length ≤ focus → d.distance focus = .throw .runtime) ∧
      (∀ h : focus < fp.length, d.distance focus = .ok (dp.map fun x => |x - fp[focus]|)) := by
  intro d
  have hp : d.mParameter = inForce oneDimVerdict (oneDimMakes ops) := by
    induction ops using List.reverseRecOn with
    | nil => rfl
    | append_singleton ops op ih =>
      have hd : d = OneDimOp.step (ops.foldl OneDimOp.step ⟨none⟩) op := by
        simp [d, List.foldl_append]
      rw [hd]
      cases op with
      | make p =>
        have : oneDimMakes (ops ++ [OneDimOp.make p]) = oneDimMakes ops ++ [p] := by simp [oneDimMakes]
        rw [this, inForce_snoc, ← ih]
        simp only [OneDimOp.step]
        unfold OneDimDistance.makeParameter oneDimVerdict
        match p with
        | [] => rfl
        | [_] => cases ‹DistParam› <;> rfl
        | [a, b] => cases a <;> cases b <;> rfl
        | a :: b :: c :: t => cases a <;> cases b <;> rfl
      | query f =>
        have : oneDimMakes (ops ++ [OneDimOp.query f]) = oneDimMakes ops := by simp [oneDimMakes]
        rw [this, ← ih]; rfl
  cases h : inForce oneDimVerdict (oneDimMakes ops) with
  | none => rw [h] at hp; simp [OneDimDistance.distance, hp]
  | some fd =>
    obtain ⟨fp, dp⟩ := fd
    rw [h] at hp
    simp only
    refine ⟨fun hf => ?_, fun hf => ?_⟩
    · simp only [OneDimDistance.distance, hp, dif_neg (not_lt.2 hf)]
    · simp only [OneDimDistance.distance, hp, dif_pos hf]

/-- **C09 (one-dimensional distance, reporting).** `makeParameter` returns normally exactly for two vectors; every other argument list is
reported as an exception, whatever the object held before. -/
theorem C09_oneDim_make_reports (d : OneDimDistance) (p : List DistParam) :
    ((d.makeParameter p).2 = .ok () ↔ ∃ fp dp, p = [.vec fp, .vec dp]) ∧
    ((d.makeParameter p).2 ≠ .ok () → ∃ e, (d.makeParameter p).2 = .throw e) := by
  unfold OneDimDistance.makeParameter
  match p with
  | [] => exact ⟨⟨fun h => (by cases h), fun ⟨_, _, h⟩ => (by cases h)⟩, fun _ => ⟨_, rfl⟩⟩
  | [_] => exact ⟨⟨fun h => (by cases h), fun ⟨_, _, h⟩ => (by cases h)⟩, fun _ => ⟨_, rfl⟩⟩
  | [a, b] =>
    cases a <;> cases b <;> simp [DistParam.getVec]
  | a :: b :: c :: t => exact ⟨⟨fun h => (by cases h), fun ⟨_, _, h⟩ => (by cases h)⟩, fun _ => ⟨_, rfl⟩⟩

example : ((⟨some ([1, 2], [3])⟩ : OneDimDistance).makeParameter [.vec [1]]).2 ≠ .ok () := by
  rw [Ne, (C09_oneDim_make_reports _ _).1]
  rintro ⟨_, _, h⟩
  cases h

/-- **C09 fails for the distance-matrix class**: with parameters set, a valid query returns an empty vector, not one entry per
data point; and a wrong argument count is not reported. -/
theorem C09_dmat_violates :
    (∀ d : DMatDistance, ∀ rowSize total focus, focus < total →
      (d.makeParameter [.uword rowSize, .uword total]).1.distance focus = .ok []) ∧
    (∀ d : DMatDistance, (d.makeParameter []).2 = .ok ()) := by
  constructor
  · intro d r t f hf
    simp [DMatDistance.makeParameter, DistParam.getUword, DMatDistance.distance]
    omega
  · intro d; rfl

/-- **C09 (distance matrix).** After every history of set-ups of a distance-matrix object a query is answered (with an empty vector) exactly if its
index is below the total of a well-typed set-up after which only set-ups with two arguments of other types have been tried; otherwise it
throws. -/
theorem C09_dmat_protocol (file : String) (ops : List (List DistParam)) (focus : ℕ) :
    let d := ops.foldl (fun d p => (d.makeParameter p).1) (⟨file, none⟩ : DMatDistance)
    (d.distance focus = .ok [] ∨ d.distance focus = .throw .runtime) ∧
    (d.distance focus = .ok [] ↔ ∃ pre post rowSize total, ops = pre ++ [.uword rowSize, .uword total] :: post ∧ focus < total ∧
      ∀ p ∈ post, p.length = 2 ∧ ∀ s t, p ≠ [.uword s, .uword t]) := by
  have key : ∀ ops : List (List DistParam), ∀ s t, (ops.foldl (fun d p => (d.makeParameter p).1) (⟨file, none⟩ : DMatDistance)).mParameter = some (s, t) ↔
      ∃ pre post, ops = pre ++ [.uword s, .uword t] :: post ∧ ∀ p ∈ post, p.length = 2 ∧ ∀ s t, p ≠ [.uword s, .uword t] := by
    intro ops
    induction ops using List.reverseRecOn with
    | nil => intro s t; simp
    | append_singleton ops p ih =>
      intro s t
      rw [List.foldl_append, List.foldl_cons, List.foldl_nil]
      set d := ops.foldl (fun d p => (d.makeParameter p).1) (⟨file, none⟩ : DMatDistance)
      by_cases hw : ∃ s' t', p = [.uword s', .uword t']
      · obtain ⟨s', t', rfl⟩ := hw
        have e : (d.makeParameter [.uword s', .uword t']).1.mParameter = some (s', t') := rfl
        rw [e]
        constructor
        · intro h
          cases h
          exact ⟨ops, [], rfl, by simp⟩
        · rintro ⟨pre, post, h, hp⟩
          rcases List.eq_nil_or_concat post with rfl | ⟨post, q, rfl⟩
          · have := (List.append_inj' h rfl).2
            simp only [List.cons.injEq, DistParam.uword.injEq, and_true] at this
            rw [this.1, this.2]
          · rw [List.concat_eq_append, ← List.cons_append, ← List.append_assoc] at h
            have := (List.append_inj' h rfl).2
            exact absurd (List.cons.inj this).1.symm ((hp q (by simp)).2 s' t')
      · push Not at hw
        by_cases hl : p.length = 2
        · have e : (d.makeParameter p).1 = d := by
            match p, hl, hw with
            | [p1, p2], _, hw =>
              cases p1 <;> cases p2 <;> first | rfl | exact absurd rfl (hw _ _)
          rw [e, ih]
          constructor
          · rintro ⟨pre, post, h, hp⟩
            refine ⟨pre, post ++ [p], by rw [h]; simp, fun q hq => ?_⟩
            rcases List.mem_append.1 hq with hq | hq
            · exact hp q hq
            · rw [List.mem_singleton.1 hq]; exact ⟨hl, hw⟩
          · rintro ⟨pre, post, h, hp⟩
            rcases List.eq_nil_or_concat post with rfl | ⟨post, q, rfl⟩
            · have := (List.append_inj' h rfl).2
              exact absurd (List.cons.inj this).1 (hw _ _)
            · rw [List.concat_eq_append, ← List.cons_append, ← List.append_assoc] at h
              exact ⟨pre, post, (List.append_inj' h rfl).1, fun r hr => hp r (by simp [hr])⟩
        · have e : (d.makeParameter p).1.mParameter = none := by
            match p, hl with
            | [], _ => rfl
            | [_], _ => rfl
            | _ :: _ :: _ :: _, _ => rfl
          rw [e]
          constructor
          · intro h; cases h
          · rintro ⟨pre, post, h, hp⟩
            rcases List.eq_nil_or_concat post with rfl | ⟨post, q, rfl⟩
            · have := (List.append_inj' h rfl).2
              exact absurd (List.cons.inj this).1 (hw _ _)
            · rw [List.concat_eq_append, ← List.cons_append, ← List.append_assoc] at h
              have := (List.append_inj' h rfl).2
              exact absurd ((List.cons.inj this).1 ▸ (hp q (by simp)).1) hl
  simp only
  set d := ops.foldl (fun d p => (d.makeParameter p).1) (⟨file, none⟩ : DMatDistance) with hd
  cases hm : d.mParameter with
  | none =>
    have e : d.distance focus = .throw .runtime := by unfold DMatDistance.distance; rw [hm]
    refine ⟨.inr e, ?_⟩
    rw [e]
    constructor
    · intro h; cases h
    · rintro ⟨pre, post, s, t, h, -, hp⟩
      have := (key ops s t).2 ⟨pre, post, h, hp⟩
      rw [← hd, hm] at this
      cases this
  | some q =>
    obtain ⟨s, t⟩ := q
    have e : d.distance focus = if focus ≥ t then .throw .runtime else .ok [] := by unfold DMatDistance.distance; rw [hm]
    have hk := (key ops s t).1 (hd ▸ hm)
    rw [e]
    by_cases hf : focus ≥ t
    · rw [if_pos hf]
      refine ⟨.inr rfl, ⟨fun h => absurd h nofun, ?_⟩⟩
      rintro ⟨pre, post, s', t', h, hlt, hp⟩
      have := (key ops s' t').2 ⟨pre, post, h, hp⟩
      rw [← hd, hm] at this
      cases this
      omega
    · rw [if_neg hf]
      obtain ⟨pre, post, h, hp⟩ := hk
      exact ⟨.inl rfl, ⟨fun _ => ⟨pre, post, s, t, h, by omega, hp⟩, fun _ => rfl⟩⟩

/-! ### C10 -/

/-- **C10 (planar, geographic and Minkowski), partial.** A clone answers every query as the original. Missing from the full
claim: the other classes, whose clones lose their parameter (theorems below). -/
theorem C10_clone_same_partial (d : CRSDistance) (e : MinkwoskiDistance) (focus : ℕ) :
    d.clone.distance focus = d.distance focus ∧ d.clone.maxDistance = d.maxDistance ∧
    d.clone.minDistance = d.minDistance ∧ e.clone.distance focus = e.distance focus := by
  rw [crs_clone_eq]
  refine ⟨rfl, rfl, rfl, ?_⟩
  unfold MinkwoskiDistance.clone
  rw [crs_clone_eq]

/-- **C10 fails for the one-dimensional distance**: whatever the original answers, its clone throws. -/
theorem C10_oneDim_clone_throws (d : OneDimDistance) (focus : ℕ) : d.clone.distance focus = .throw .runtime := rfl

/-- **C10 fails for the one-dimensional distance**, concrete: an object that answers, whose clone does not. -/
theorem C10_oneDim_clone_differs :
    ∃ d : OneDimDistance, d.distance 0 = .ok [1] ∧ d.clone.distance 0 = .throw .runtime :=
  ⟨⟨some ([0], [1])⟩, by simp [OneDimDistance.distance], rfl⟩

/-- **C10 fails for the distance-matrix class.** -/
theorem C10_dmat_clone_differs :
    ∃ d : DMatDistance, d.distance 0 = .ok [] ∧ d.clone.distance 0 = .throw .runtime :=
  ⟨⟨"f", some (1, 1)⟩, by simp [DMatDistance.distance], rfl⟩

/-- **C10 fails for the spatio-temporal distance**: every successful clone throws on every query for which its spatial part
answers, because the temporal part of the clone has no parameter. -/
theorem C10_st_clone_throws (d d' : CRSSTDistance) (h : d.clone = .ok d') (focus : ℕ) (l : List ℝ) :
    d'.distance focus ≠ .ok l := by
  unfold CRSSTDistance.clone at h
  split at h
  · split at h
    · rename_i s t _ _
      have h := Res.ok.inj h
      subst h
      simp only [CRSSTDistance.distance, stDistance, OneDimDistance.clone, OneDimDistance.distance,
        OneDimDistance.noAbsdistance, ite_self]
      cases s.clone.distance focus <;> simp [Res.bind]
    · cases h
  · cases h

/-! ### C09 for the spatio-temporal distance -/

/-- **C09 (spatio-temporal distance, reporting).** `makeParameter` returns normally exactly for two matrices of two columns and two vectors, all with
the same number of points; every other argument list is reported as an exception. -/
theorem C09_st_make_reports (d : CRSSTDistance) (s : CRSDistance) (t : OneDimDistance) (hs : d.mSpatial = some s) (ht : d.mTemporal = some t)
    (p : List DistParam) :
    ((d.makeParameter p).2 = .ok () ↔ ∃ sfp sdp tfp tdp, p = [.mat sfp, .mat sdp, .vec tfp, .vec tdp] ∧ sfp.nCols = 2 ∧ sdp.nCols = 2 ∧
      sfp.nRows = sdp.nRows ∧ sdp.nRows = tfp.length ∧ tfp.length = tdp.length) ∧
    ((d.makeParameter p).2 ≠ .ok () → ∃ e, (d.makeParameter p).2 = .throw e) := by
  unfold CRSSTDistance.makeParameter
  match p with
  | [] => exact ⟨⟨fun h => (by cases h), fun ⟨_, _, _, _, h, _⟩ => (by cases h)⟩, fun _ => ⟨_, rfl⟩⟩
  | [_] => exact ⟨⟨fun h => (by cases h), fun ⟨_, _, _, _, h, _⟩ => (by cases h)⟩, fun _ => ⟨_, rfl⟩⟩
  | [_, _] => exact ⟨⟨fun h => (by cases h), fun ⟨_, _, _, _, h, _⟩ => (by cases h)⟩, fun _ => ⟨_, rfl⟩⟩
  | [_, _, _] => exact ⟨⟨fun h => (by cases h), fun ⟨_, _, _, _, h, _⟩ => (by cases h)⟩, fun _ => ⟨_, rfl⟩⟩
  | _ :: _ :: _ :: _ :: _ :: _ => exact ⟨⟨fun h => (by cases h), fun ⟨_, _, _, _, h, _⟩ => (by cases h)⟩, fun _ => ⟨_, rfl⟩⟩
  | [a, b, c, e] =>
    cases a <;> cases b <;> cases c <;> cases e <;> simp [DistParam.getMat, DistParam.getVec]
    rename_i sfp sdp tfp tdp
    by_cases hn : sfp.nRows = sdp.nRows ∧ sdp.nRows = tfp.length ∧ tfp.length = tdp.length
    · rw [if_pos hn]
      by_cases hc : sfp.nCols = 2 ∧ sdp.nCols = 2
      · simp [hs, ht, CRSDistance.makeParameter, OneDimDistance.makeParameter, DistParam.getMat, DistParam.getVec, hc, hn]
      · simp only [hs, ht, CRSDistance.makeParameter, DistParam.getMat, if_neg hc]
        refine ⟨⟨fun h => (by cases h), fun h => absurd ⟨h.1, h.2.1⟩ hc⟩, fun _ => ⟨_, rfl⟩⟩
    · rw [if_neg hn]
      refine ⟨⟨fun h => (by cases h), fun h => absurd h.2.2 hn⟩, fun _ => ⟨_, rfl⟩⟩

/-- **C09 (spatio-temporal distance, accepted data).** After an accepted set-up a query of a planar object is answered, with one value per point, exactly
if its number is that of a point. -/
theorem C09_st_accepted (d : CRSSTDistance) (s : CRSDistance) (t : OneDimDistance) (hs : d.mSpatial = some s) (hg : s.mGeographic = false)
    (ht : d.mTemporal = some t) (sfp sdp : DynMat) (tfp tdp : List ℝ)
    (h : (d.makeParameter [.mat sfp, .mat sdp, .vec tfp, .vec tdp]).2 = .ok ()) (focus : ℕ) :
    (focus < sfp.nRows → ∃ l, (d.makeParameter [.mat sfp, .mat sdp, .vec tfp, .vec tdp]).1.distance focus = .ok l ∧ l.length = sfp.nRows) ∧
    (sfp.nRows ≤ focus → (d.makeParameter [.mat sfp, .mat sdp, .vec tfp, .vec tdp]).1.distance focus = .throw .runtime) := by
  obtain ⟨_, _, _, _, hp, h1, h2, h3, h4, h5⟩ := (C09_st_make_reports d s t hs ht _).1.1 h
  cases hp
  have hn : sfp.nRows = sdp.nRows ∧ sdp.nRows = tfp.length ∧ tfp.length = tdp.length := ⟨h3, h4, h5⟩
  have hd : (d.makeParameter [.mat sfp, .mat sdp, .vec tfp, .vec tdp]).1 =
      { d with mSpatial := some ⟨false, some (sfp, sdp)⟩, mTemporal := some ⟨some (tfp, tdp)⟩, mParameter := some sfp.nRows } := by
    obtain ⟨g, q⟩ := s
    cases hg
    simp [CRSSTDistance.makeParameter, DistParam.getMat, DistParam.getVec, if_pos hn, hs, ht, CRSDistance.makeParameter,
      OneDimDistance.makeParameter, h1, h2]
  rw [hd]
  constructor
  · intro hf
    have hft : focus < tfp.length := by omega
    obtain ⟨l, hl⟩ : ∃ l, crsDistRow false sfp sdp focus = .ok l := ⟨_, crsDistRow_planar sfp sdp focus⟩
    have hlen : l.length = sdp.nRows := by
      have := crsDistRow_planar sfp sdp focus
      rw [hl] at this
      cases Res.ok.inj this
      simp
    have ht' : ∃ l', (if |d.mLambda - 1| < 1e-16 then (⟨some (tfp, tdp)⟩ : OneDimDistance).distance focus
        else (⟨some (tfp, tdp)⟩ : OneDimDistance).noAbsdistance focus) = .ok l' ∧ l'.length = tdp.length := by
      split
      · exact ⟨_, by simp only [OneDimDistance.distance, dif_pos hft]; rfl, by simp⟩
      · exact ⟨_, by simp only [OneDimDistance.noAbsdistance, dif_pos hft]; rfl, by simp⟩
    obtain ⟨l', hl', hlen'⟩ := ht'
    have e : (⟨some ⟨false, some (sfp, sdp)⟩, some ⟨some (tfp, tdp)⟩, d.mLambda, d.mAngle, d.mCalc, some sfp.nRows⟩ : CRSSTDistance).distance focus =
        .ok (List.zipWith (fun s t : ℝ => if t < 0 then futureSentinel else stCombine d.mLambda (match d.mCalc with
          | .orthogonal => 1
          | .oblique => Real.cos d.mAngle) s t) l l') := by
      simp only [CRSSTDistance.distance, stDistance, CRSDistance.distance, if_pos hf, hl, hl', Res.bind]
      rw [if_neg (by omega)]
      cases d.mCalc <;> rfl
    exact ⟨_, e, by simp only [List.length_zipWith]; omega⟩
  · intro hf
    simp only [CRSSTDistance.distance, stDistance, CRSDistance.distance, if_neg (not_lt.2 hf), Res.bind]

/-- **C09 fails for the spatio-temporal distance**: after a set-up rejected for its number of arguments or for numbers of points that differ, queries are
still answered, with the data of the set-up before; only the largest and the smallest distance are refused. -/
theorem C09_st_rejected_still_answers (d : CRSSTDistance) (focus : ℕ) (sfp sdp : DynMat) (tfp tdp : List ℝ)
    (h : ¬ (sfp.nRows = sdp.nRows ∧ sdp.nRows = tfp.length ∧ tfp.length = tdp.length)) :
    (d.makeParameter [.mat sfp, .mat sdp, .vec tfp, .vec tdp]).2 = .throw .runtime ∧
    (d.makeParameter [.mat sfp, .mat sdp, .vec tfp, .vec tdp]).1.distance focus = d.distance focus ∧
    (d.makeParameter [.mat sfp, .mat sdp, .vec tfp, .vec tdp]).1.maxDistance = .throw .runtime ∧
    (d.makeParameter [.mat sfp, .mat sdp, .vec tfp, .vec tdp]).1.minDistance = .throw .runtime ∧
    (d.makeParameter []).2 = .throw .runtime ∧ (d.makeParameter []).1.distance focus = d.distance focus ∧
    (d.makeParameter []).1.maxDistance = .throw .runtime ∧ (d.makeParameter []).1.minDistance = .throw .runtime := by
  have hd : d.makeParameter [.mat sfp, .mat sdp, .vec tfp, .vec tdp] = ({ d with mParameter := none }, .throw .runtime) := by
    simp only [CRSSTDistance.makeParameter, DistParam.getMat, DistParam.getVec, if_neg h]
  rw [hd]
  exact ⟨rfl, rfl, rfl, rfl, rfl, rfl, rfl, rfl⟩

/-- An accepted set-up, and that the object then still answers after a rejected one. -/
example (lam : ℝ) :
    let d := CRSSTDistance.new ⟨false, none⟩ ⟨none⟩ lam
    let d1 := (d.makeParameter [.mat ⟨2, 2, fun i _ => i⟩, .mat ⟨2, 2, fun i _ => i⟩, .vec [1, 2], .vec [1, 2]]).1
    ∃ l, (d1.makeParameter []).1.distance 1 = .ok l ∧ l.length = 2 := by
  intro d d1
  have hok : (d.makeParameter [.mat ⟨2, 2, fun i _ => i⟩, .mat ⟨2, 2, fun i _ => i⟩, .vec [1, 2], .vec [1, 2]]).2 = .ok () :=
    (C09_st_make_reports d _ _ rfl rfl _).1.2 ⟨_, _, _, _, rfl, rfl, rfl, rfl, rfl, rfl⟩
  obtain ⟨l, hl, hn⟩ := (C09_st_accepted d _ _ rfl rfl rfl _ _ _ _ hok 1).1 (by norm_num)
  exact ⟨l, by rw [(C09_st_rejected_still_answers d1 1 ⟨1, 2, fun _ _ => 0⟩ ⟨2, 2, fun _ _ => 0⟩ [] [] (by simp)).2.2.2.2.2.1]; exact hl, hn⟩

/-! ### C11 -/

/-- **C11 (what the code computes), partial.** Without a rotation angle: exponent 1 gives the maximum of the coordinate
differences, exponent −1 their sum, and every other exponent (2 included) raises an exception. Missing from the full claim:
the documented `L_p` formula, which fails (`C11_p1_not_manhattan`, `C11_general_p_throws`). -/
theorem C11_dispatch_partial (d : MinkwoskiDistance) (fp dp : DynMat) (focus : ℕ) (hg : d.base.mGeographic = false)
    (hp : d.base.mParameter = some (fp, dp)) (hf : focus < fp.nRows) (ht : d.mTheta = 0) :
    (d.mPoly = 1 → d.distance focus = .ok ((List.range dp.nRows).map fun j =>
      max |dp.val j 0 - fp.val focus 0| |dp.val j 1 - fp.val focus 1|)) ∧
    (d.mPoly = -1 → d.distance focus = .ok ((List.range dp.nRows).map fun j =>
      |dp.val j 0 - fp.val focus 0| + |dp.val j 1 - fp.val focus 1|)) := by
  constructor
  · intro h1
    unfold MinkwoskiDistance.distance
    rw [hp]
    simp [hg, hf, h1, ht, chessDist]
  · intro h1
    unfold MinkwoskiDistance.distance
    rw [hp]
    have : ¬ ((-1 : ℝ) = 1) := by norm_num
    simp [hg, hf, h1, ht, this, manhattonDist]

/-- **C11 fails**: no exponent other than ±1 works at all, in particular not the default 2. -/
theorem C11_general_p_throws (d : MinkwoskiDistance) (hg : d.base.mGeographic = false) (h1 : d.mPoly ≠ 1)
    (h2 : d.mPoly ≠ -1) (focus : ℕ) (l : List ℝ) : d.distance focus ≠ .ok l := by
  unfold MinkwoskiDistance.distance
  cases hp : d.base.mParameter with
  | none => simp
  | some fd =>
    simp only [hg, Bool.false_eq_true, if_false, if_neg h1, if_neg h2, minkwoskiDist]
    split <;> simp

/-- **C11 (longitude and latitude).** A Minkowski object marked geographic ignores its exponent and its rotation angle: every query gives
what a plain geographic distance object with the same points gives, entry by entry the ellipsoid distance of `spGcdist`. -/
theorem C11_geographic (d : MinkwoskiDistance) (hg : d.base.mGeographic = true) (fp dp : DynMat)
    (hp : d.base.mParameter = some (fp, dp)) (focus : ℕ) :
    d.distance focus = (⟨true, some (fp, dp)⟩ : CRSDistance).distance focus ∧
    (∀ l, d.distance focus = .ok l → focus < fp.nRows ∧ l.length = dp.nRows ∧
      ∀ j (hj : j < l.length), spGcdist (dp.val j 0) (fp.val focus 0) (dp.val j 1) (fp.val focus 1) = .ok l[j]) ∧
    (fp.nRows ≤ focus → d.distance focus = .throw .runtime) := by
  have h1 : d.distance focus = (⟨true, some (fp, dp)⟩ : CRSDistance).distance focus := by
    obtain ⟨⟨g, q⟩, a, t⟩ := d
    cases hp
    cases hg
    simp [MinkwoskiDistance.distance]
  have key : ∀ (k : ℕ) (f : ℕ → Res ℝ) (is : List ℕ) (l : List ℝ), mapRes f is = .ok l → l.length = is.length ∧
      ∀ j (hj : j < l.length) (hi : j < is.length), f is[j] = .ok l[j] := by
    intro k f is
    induction is with
    | nil => intro l h; cases Res.ok.inj h; exact ⟨rfl, fun j hj => (by simp at hj)⟩
    | cons i is ih =>
      intro l h
      rw [mapRes] at h
      obtain ⟨y, hy, h⟩ := Res.bind_eq_ok'.1 h
      obtain ⟨ys, hys, h⟩ := Res.bind_eq_ok'.1 h
      cases Res.ok.inj h
      obtain ⟨hl, hv⟩ := ih ys hys
      refine ⟨by simp [hl], ?_⟩
      intro j hj hi
      cases j with
      | zero => simpa using hy
      | succ j => simpa using hv j (by simpa using hj) (by simpa using hi)
  refine ⟨h1, ?_, ?_⟩
  · intro l h
    rw [h1] at h
    simp only [CRSDistance.distance] at h
    by_cases hf : focus < fp.nRows
    · rw [if_pos hf] at h
      obtain ⟨hl, hv⟩ := key 0 _ _ _ h
      rw [List.length_range] at hl
      refine ⟨hf, hl, fun j hj => ?_⟩
      have := hv j hj (by simpa [hl] using hj)
      rw [List.getElem_range] at this
      simpa [crsCalc] using this
    · rw [if_neg hf] at h; cases h
  · intro hf
    rw [h1]
    simp only [CRSDistance.distance, if_neg (not_lt.2 hf)]

example : ∃ l, (⟨⟨true, some (⟨1, 2, fun _ _ => 30⟩, ⟨1, 2, fun _ _ => 30⟩)⟩, 1, 0⟩ : MinkwoskiDistance).distance 0 = .ok l := by
  rw [(C11_geographic _ rfl _ _ rfl 0).1]
  exact ⟨[0], by simp [CRSDistance.distance, crsDistRow, mapRes, crsCalc, spGcdist, doubleEps, Res.bind]; norm_num⟩

/-- **C11 fails for exponent 1**: from (0,0) to (1,1) the result is 1, the `L_1` distance is 2. -/
theorem C11_p1_not_manhattan :
    ∃ (fp dp : DynMat), (⟨⟨false, some (fp, dp)⟩, 1, 0⟩ : MinkwoskiDistance).distance 0 = .ok [1] ∧
      lpDist 1 (fp.val 0) (dp.val 0) = 2 := by
  refine ⟨⟨1, 2, fun _ _ => 0⟩, ⟨1, 2, fun _ _ => 1⟩, ?_, ?_⟩
  · simp [MinkwoskiDistance.distance, chessDist]
  · norm_num [lpDist]

/-- **C11 (rotation).** The rotation applied for a non-zero angle changes no Euclidean distance and is undone by the opposite
angle. -/
theorem C11_rotation_isometry (θ : ℝ) (p q : ℕ → ℝ) :
    euclid (rotate θ p) (rotate θ q) = euclid p q ∧
    rotate (-θ) (rotate θ p) 0 = p 0 ∧ rotate (-θ) (rotate θ p) 1 = p 1 := by
  refine ⟨euclid_rotate θ p q, ?_, ?_⟩
  · simp only [rotate, if_true, one_ne_zero, if_false, Real.cos_neg, Real.sin_neg]
    linear_combination p 0 * Real.sin_sq_add_cos_sq θ
  · simp only [rotate, if_true, one_ne_zero, if_false, Real.cos_neg, Real.sin_neg]
    linear_combination p 1 * Real.sin_sq_add_cos_sq θ

/-- **C11/C08 fail for Minkowski bounds**: `maxDistance` is inherited from the Euclidean base class, so with exponent −1
(Manhattan) a returned distance can exceed it. -/
theorem C11_max_too_small :
    ∃ (fp dp : DynMat) (M : ℝ), (⟨⟨false, some (fp, dp)⟩, -1, 0⟩ : MinkwoskiDistance).distance 0 = .ok [2] ∧
      (⟨false, some (fp, dp)⟩ : CRSDistance).maxDistance = .ok M ∧ M < 2 := by
  refine ⟨⟨1, 2, fun _ _ => 0⟩, ⟨1, 2, fun _ _ => 1⟩, √2, ?_, ?_, ?_⟩
  · have : ¬ ((-1 : ℝ) = 1) := by norm_num
    simp [MinkwoskiDistance.distance, manhattonDist, this]; norm_num
  · simp [CRSDistance.maxDistance, maxLoop, crsDistRow, mapRes, Res.bind, listMax, crsCalc, euclid]
    norm_num
  · rw [Real.sqrt_lt' (by norm_num)]; norm_num

/-! ### C12 -/

/-- Calls that may change λ: `setLambda`, and cloning (continuing with the clone when it succeeds). -/
inductive STOp
  | setLambda (l : ℝ) | clone | make (plist : List DistParam)

noncomputable def STOp.step (d : CRSSTDistance) : STOp → CRSSTDistance
  | .setLambda l => (d.setLambda l).1
  | .clone => match d.clone with
    | .ok d' => d'
    | _ => d
  | .make p => (d.makeParameter p).1

theorem st_make_lambda (d : CRSSTDistance) (p : List DistParam) : (d.makeParameter p).1.mLambda = d.mLambda := by
  unfold CRSSTDistance.makeParameter
  repeat' split
  all_goals rfl

/-- **C12 (λ), partial.** Starting from an object constructed with λ in `[0,1]`, λ stays in `[0,1]` after every history.
Missing from the full claim: the constructors do not check λ (`C12_constructor_unchecked`). -/
theorem C12_lambda_range_partial (s : CRSDistance) (t : OneDimDistance) (l0 : ℝ) (h0 : 0 ≤ l0 ∧ l0 ≤ 1)
    (ops : List STOp) :
    0 ≤ (ops.foldl STOp.step (CRSSTDistance.new s t l0)).mLambda ∧
    (ops.foldl STOp.step (CRSSTDistance.new s t l0)).mLambda ≤ 1 := by
  have key : ∀ d : CRSSTDistance, (0 ≤ d.mLambda ∧ d.mLambda ≤ 1) →
      (0 ≤ (ops.foldl STOp.step d).mLambda ∧ (ops.foldl STOp.step d).mLambda ≤ 1) := by
    induction ops with
    | nil => exact fun d h => h
    | cons op ops ih =>
      intro d hd
      apply ih
      cases op with
      | setLambda l =>
        simp only [STOp.step, CRSSTDistance.setLambda]
        split
        · rename_i h; exact h
        · exact hd
      | clone =>
        simp only [STOp.step]
        split
        · rename_i d' h
          unfold CRSSTDistance.clone at h
          rw [if_pos hd] at h
          split at h
          · have := Res.ok.inj h; subst this; exact hd
          · cases h
        · exact hd
      | make p =>
        simp only [STOp.step, st_make_lambda]; exact hd
  exact key _ h0

/-- `setLambda` outside `[0,1]` throws and changes nothing; inside it stores the value. -/
theorem C12_setLambda (d : CRSSTDistance) (l : ℝ) :
    ((0 ≤ l ∧ l ≤ 1) → d.setLambda l = ({ d with mLambda := l }, .ok ())) ∧
    (¬ (0 ≤ l ∧ l ≤ 1) → d.setLambda l = (d, .throw .runtime)) := by
  constructor <;> intro h <;> simp only [CRSSTDistance.setLambda, ge_iff_le, h, if_true, and_self, if_false]

/-- **C12 fails for the constructor**: λ = 5 is accepted (and then makes the copy constructor throw). -/
theorem C12_constructor_unchecked (s : CRSDistance) (t : OneDimDistance) :
    (CRSSTDistance.new s t 5).mLambda = 5 ∧ (CRSSTDistance.new s t 5).clone = .throw .runtime := by
  refine ⟨rfl, ?_⟩
  unfold CRSSTDistance.clone CRSSTDistance.new
  rw [if_neg (by norm_num)]

/-- **C12 (λ = 1).** The result is the spatial distance. -/
theorem C12_lambda_one (cal : STCalc) (s : CRSDistance) (t : OneDimDistance) (focus : ℕ) (angle : ℝ) (ls lt : List ℝ)
    (hs : s.distance focus = .ok ls) (ht : t.distance focus = .ok lt) (hl : ls.length = lt.length) :
    stDistance cal s t focus 1 angle = .ok ls := by
  have hpos : ∀ x ∈ lt, 0 ≤ x := by
    unfold OneDimDistance.distance at ht
    split at ht
    · cases ht
    · split at ht
      · have := Res.ok.inj ht
        subst this
        intro x hx
        obtain ⟨y, -, rfl⟩ := List.mem_map.1 hx
        exact abs_nonneg _
      · cases ht
  have h1 : (|(1 : ℝ) - 1| < 1e-16) := by norm_num
  simp only [stDistance, hs, Res.bind, if_pos h1, ht, hl, ne_eq, not_true_eq_false, if_false]
  congr 1
  have key : ∀ (c : ℝ) (ls lt : List ℝ), ls.length = lt.length → (∀ x ∈ lt, 0 ≤ x) →
      List.zipWith (fun s t => if t < 0 then futureSentinel else stCombine 1 c s t) ls lt = ls := by
    intro c ls
    induction ls with
    | nil => intro lt _ _; simp
    | cons a as ih =>
      intro lt hlen hp
      cases lt with
      | nil => simp at hlen
      | cons b bs =>
        simp only [List.zipWith_cons_cons]
        rw [ih bs (by simpa using hlen) (fun x hx => hp x (by simp [hx])), if_neg (not_lt.2 (hp b (by simp)))]
        simp [stCombine]
  exact key _ ls lt hl hpos

/-- **C12 (λ = 0).** The result is the elapsed time since each observation, and the sentinel for observations of the
future. -/
theorem C12_lambda_zero (cal : STCalc) (s : CRSDistance) (t : OneDimDistance) (focus : ℕ) (angle : ℝ) (ls lt : List ℝ)
    (hs : s.distance focus = .ok ls) (ht : t.noAbsdistance focus = .ok lt) (hl : ls.length = lt.length) :
    stDistance cal s t focus 0 angle = .ok (lt.map fun x => if x < 0 then 10000000000000 else x) := by
  have h1 : ¬ (|(0 : ℝ) - 1| < 1e-16) := by norm_num
  simp only [stDistance, hs, Res.bind, if_neg h1, ht, hl, ne_eq, not_true_eq_false, if_false]
  congr 1
  have key : ∀ (c : ℝ) (ls lt : List ℝ), ls.length = lt.length →
      List.zipWith (fun s t => if t < 0 then futureSentinel else stCombine 0 c s t) ls lt =
        lt.map fun x => if x < 0 then 10000000000000 else x := by
    intro c ls
    induction ls with
    | nil => intro lt h; cases lt with
      | nil => rfl
      | cons b bs => simp at h
    | cons a as ih =>
      intro lt hlen
      cases lt with
      | nil => simp at hlen
      | cons b bs =>
        simp only [List.zipWith_cons_cons, List.map_cons]
        rw [ih bs (by simpa using hlen)]
        congr 1
        simp [stCombine, futureSentinel]
  exact key _ ls lt hl

/-- **C12 (sign and monotonicity).** For λ in `[0,1]`, non-negative parts and any angle the combination is non-negative; the
orthogonal combination never decreases when either part grows. -/
theorem C12_combine_nonneg_mono (l c s t s' t' : ℝ) (hl0 : 0 ≤ l) (hl1 : l ≤ 1) (hc : |c| ≤ 1) (hs : 0 ≤ s) (ht : 0 ≤ t)
    (hs' : s ≤ s') (ht' : t ≤ t') :
    0 ≤ stCombine l c s t ∧ stCombine l 1 s t ≤ stCombine l 1 s' t' := by
  have hl1' : 0 ≤ 1 - l := by linarith
  constructor
  · have h1 : √(l * (1 - l) * s * t) = √(l * s) * √((1 - l) * t) := by
      rw [← Real.sqrt_mul (by positivity)]; congr 1; ring
    have h2 : √(l * s) ^ 2 = l * s := Real.sq_sqrt (by positivity)
    have h3 : √((1 - l) * t) ^ 2 = (1 - l) * t := Real.sq_sqrt (by positivity)
    have h4 : 0 ≤ √(l * s) * √((1 - l) * t) := by positivity
    have h5 : -1 ≤ c := (abs_le.1 hc).1
    unfold stCombine
    rw [h1]
    generalize √(l * s) = a at *
    generalize √((1 - l) * t) = b at *
    rw [← h2, ← h3]
    nlinarith [sq_nonneg (a - b)]
  · unfold stCombine
    have h1 : l * s ≤ l * s' := mul_le_mul_of_nonneg_left hs' hl0
    have h2 : (1 - l) * t ≤ (1 - l) * t' := mul_le_mul_of_nonneg_left ht' hl1'
    have h3 : √(l * (1 - l) * s * t) ≤ √(l * (1 - l) * s' * t') := by
      apply Real.sqrt_le_sqrt
      have : l * (1 - l) * s ≤ l * (1 - l) * s' := mul_le_mul_of_nonneg_left hs' (by positivity)
      have hh : 0 ≤ l * (1 - l) * s := by positivity
      calc l * (1 - l) * s * t ≤ l * (1 - l) * s * t' := mul_le_mul_of_nonneg_left ht' hh
        _ ≤ l * (1 - l) * s' * t' := mul_le_mul_of_nonneg_right this (ht.trans ht')
    linarith

/-- **C12 (API).** A spatio-temporal distance object with a planar spatial part, λ in `[0,1]` and any angle reports only
non-negative distances. -/
theorem C12_distance_nonneg (d : CRSSTDistance) (s : CRSDistance) (hs : d.mSpatial = some s) (hg : s.mGeographic = false)
    (hl : 0 ≤ d.mLambda ∧ d.mLambda ≤ 1) (focus : ℕ) (l : List ℝ) (h : d.distance focus = .ok l) :
    ∀ x ∈ l, 0 ≤ x := by
  unfold CRSSTDistance.distance at h
  rw [hs] at h
  cases ht : d.mTemporal with
  | none => rw [ht] at h; cases h
  | some t =>
    rw [ht] at h
    simp only [stDistance] at h
    rw [Res.bind_eq_ok'] at h
    obtain ⟨sd, h1, h⟩ := h
    rw [Res.bind_eq_ok'] at h
    obtain ⟨td, h2, h⟩ := h
    split at h
    · cases h
    · have h := Res.ok.inj h
      subst h
      have hsd : ∀ x ∈ sd, 0 ≤ x := by
        unfold CRSDistance.distance at h1
        split at h1
        · cases h1
        · split at h1
          · rw [hg, crsDistRow_planar] at h1
            have := Res.ok.inj h1
            subst this
            intro x hx
            obtain ⟨j, -, rfl⟩ := List.mem_map.1 hx
            exact euclid_nonneg _ _
          · cases h1
      intro x hx
      rw [List.mem_iff_getElem] at hx
      obtain ⟨i, hi, rfl⟩ := hx
      simp only [List.length_zipWith, lt_inf_iff] at hi
      simp only [List.getElem_zipWith]
      split
      · norm_num [futureSentinel]
      · rename_i ht0
        refine (C12_combine_nonneg_mono d.mLambda _ _ _ _ _ hl.1 hl.2 ?_ (hsd _ (List.getElem_mem hi.1))
          (not_lt.1 ht0) le_rfl le_rfl).1
        split
        · norm_num
        · exact Real.abs_cos_le_one _

/-- The two calculators disagree at the right angle: for λ = 1/2 and both parts 1 the orthogonal one gives 2, while the
oblique one at angle π/2 gives 1. -/
theorem C12_orthogonal_vs_oblique :
    stCombine (1/2) 1 1 1 = 2 ∧ stCombine (1/2) (Real.cos (Real.pi / 2)) 1 1 = 1 := by
  constructor
  · have : √((1/2 : ℝ) * (1 - 1/2) * 1 * 1) = 1/2 := by
      rw [show (1/2 : ℝ) * (1 - 1/2) * 1 * 1 = (1/2) ^ 2 by norm_num]
      exact Real.sqrt_sq (by norm_num)
    rw [stCombine, this]; norm_num
  · rw [Real.cos_pi_div_two]; norm_num [stCombine]

example : (0 : ℝ) ≤ 1/2 ∧ (1/2 : ℝ) ≤ 1 ∧ |(0 : ℝ)| ≤ 1 ∧ (0 : ℝ) ≤ 3 := by norm_num

end Verif.Props

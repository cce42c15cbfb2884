import Verif.Lemmas.KernelAdaptive
import Verif.Lemmas.Distance
import Verif.Lemmas.BandwidthSelector
import Verif.Spec.Distance
import Verif.Spec.Formulas
import Verif.Props.Kernel
import Mathlib.Tactic.FieldSimp

/-!
# C97, and the formulas behind C08, C09, C11 and C12

Statements that name the coordinates, the times and the textbook formulas themselves, not the functions that compute them.
-/

namespace Verif.Props
open Verif Verif.Model Verif.Spec

/-! ### C97 -/

theorem kval_eq_formula (k : KernelType) (d b : ℝ) : kval k d b = kernelFormula k b d := by
  cases k
  · simp only [kval, kernelFormula]
    congr 1
    rw [div_pow, neg_div, div_div, mul_comm (b ^ 2)]
  all_goals rfl

/-- **C97 (fixed bandwidth).** With any positive fixed bandwidth, for any vector of distances, every kernel gives exactly the
documented weights. -/
theorem C97_fixed_kernel_formula (k : KernelType) (bw : ℝ) (hb : 0 < bw) {n : ℕ} (dist : Fin n → ℝ) :
    (⟨bw, false, k⟩ : BandwidthWeight).weight dist = .ok fun i => kernelFormula k bw (dist i) := by
  unfold BandwidthWeight.weight
  simp only [Bool.false_eq_true, if_false]
  exact kernelVec_eq_ok.2 fun i => by rw [kernelAt_of_ne hb.ne', kval_eq_formula]

/-- **C97 (adaptive bandwidth).** With an adaptive bandwidth of `k` neighbours, `1 ≤ k < n`, the documented weights are taken
at the distance `r` of the `k`-th nearest observation, provided that distance is positive. -/
theorem C97_adaptive_kernel_formula (kernel : KernelType) {n : ℕ} (dist : Fin n → ℝ) (k : ℕ) (r : ℝ) (hk1 : 1 ≤ k)
    (hkn : k < n) (hk31 : k < 2147483648) (hr : IsKthSmallest dist k r) (hpos : 0 < r) :
    (⟨k, true, kernel⟩ : BandwidthWeight).weight dist = .ok fun i => kernelFormula kernel r (dist i) := by
  rw [C04_adaptive_integer kernel dist k r hk1 hkn hk31 hr]
  exact C97_fixed_kernel_formula kernel r hpos dist

/-- Non-trivial case: bisquare weights of the distances 0, 1, 2 for bandwidth 2 are 1, 9/16 and 0. -/
example : (⟨2, false, .Bisquare⟩ : BandwidthWeight).weight ![0, 1, 2] = .ok ![1, 9 / 16, 0] := by
  rw [C97_fixed_kernel_formula _ _ (by norm_num)]
  congr 1
  funext i
  fin_cases i <;> norm_num [kernelFormula]

/-! ### C08 for the other distance classes -/

/-- The two loops give sharp bounds when every focus has a non-empty row of values in `[0, DBL_MAX]`. -/
theorem loops_sharp (rows : ℕ → Res (List ℝ)) (N : ℕ) (hN : 0 < N) (hout : ∀ i l, rows i = .ok l → i < N)
    (hrow : ∀ i < N, ∃ l, rows i = .ok l ∧ l ≠ [] ∧ ∀ x ∈ l, 0 ≤ x ∧ x ≤ dblMax) :
    ∃ M m, maxLoop rows (List.range N) 0 = .ok M ∧ minLoop rows (List.range N) dblMax = .ok m ∧ SharpBounds rows M m := by
  have htot : ∀ i ∈ List.range N, ∃ l, rows i = .ok l ∧ l ≠ [] := fun i hi => by
    obtain ⟨l, h1, h2, -⟩ := hrow i (by simpa using hi)
    exact ⟨l, h1, h2⟩
  obtain ⟨M, hM⟩ := maxLoop_total 0 htot
  obtain ⟨m, hm⟩ := minLoop_total dblMax htot
  obtain ⟨M1, M2, M3⟩ := maxLoop_spec hM
  obtain ⟨m1, m2, m3⟩ := minLoop_spec hm
  have h0 : (0 : ℕ) ∈ List.range N := by simpa using hN
  obtain ⟨l0, e0, n0, b0⟩ := hrow 0 hN
  obtain ⟨x0, hx0⟩ := List.exists_mem_of_ne_nil l0 n0
  have up : ∀ i l, rows i = .ok l → ∀ x ∈ l, m ≤ x ∧ x ≤ M := fun i l hl x hx => by
    have hi : i ∈ List.range N := by simpa using hout i l hl
    obtain ⟨l1, e1, -, b1⟩ := M2 i hi
    obtain ⟨l2, e2, -, b2⟩ := m2 i hi
    rw [hl] at e1 e2
    have e1 := Res.ok.inj e1
    have e2 := Res.ok.inj e2
    subst e1 e2
    exact ⟨b2 x hx, b1 x hx⟩
  refine ⟨M, m, hM, hm, up, ?_, ?_⟩
  · rcases M3 with h | ⟨i, -, l, hl, hMl⟩
    · refine ⟨0, l0, e0, ?_⟩
      have : M = x0 := by
        have h2 := (up 0 l0 e0 x0 hx0).2
        have h3 := (b0 x0 hx0).1
        linarith
      rw [this]; exact hx0
    · exact ⟨i, l, hl, hMl⟩
  · rcases m3 with h | ⟨i, -, l, hl, hml⟩
    · refine ⟨0, l0, e0, ?_⟩
      have : m = x0 := by
        have h2 := (up 0 l0 e0 x0 hx0).1
        have h3 := (b0 x0 hx0).2
        linarith
      rw [this]; exact hx0
    · exact ⟨i, l, hl, hml⟩

/-- **C09/C12 (one dimension).** A one-dimensional distance object with focus points `f` and data points `x` returns `|xⱼ − fᵢ|` for
each focus `i`, and an exception beyond the last focus point. -/
theorem C09_oneDim_formula (d : OneDimDistance) (n m : ℕ) (f : Fin n → ℝ) (x : Fin m → ℝ) (i : ℕ) :
    (d.makeParameter [.vec (List.ofFn f), .vec (List.ofFn x)]).2 = .ok () ∧
    (d.makeParameter [.vec (List.ofFn f), .vec (List.ofFn x)]).1.distance i =
      if h : i < n then .ok (List.ofFn fun j => |x j - f ⟨i, h⟩|) else .throw .runtime := by
  refine ⟨rfl, ?_⟩
  simp only [OneDimDistance.makeParameter, DistParam.getVec, OneDimDistance.distance, List.length_ofFn, List.map_ofFn,
    List.getElem_ofFn, Function.comp_def]

/-- **C08 (one dimension).** With at least one focus point and one data point, `maxDistance` and `minDistance` of the
one-dimensional distance are bounds of all distances and attained. -/
theorem C08_oneDim_sharp (f x : List ℝ) (hf : f ≠ []) (hx : x ≠ [])
    (hmax : ∀ a ∈ f, ∀ b ∈ x, |b - a| ≤ dblMax) :
    ∃ M m, (⟨some (f, x)⟩ : OneDimDistance).maxDistance = .ok M ∧ (⟨some (f, x)⟩ : OneDimDistance).minDistance = .ok m ∧
      SharpBounds (⟨some (f, x)⟩ : OneDimDistance).distance M m := by
  refine loops_sharp _ f.length (List.length_pos_of_ne_nil hf) (fun i l hl => ?_) fun i hi => ?_
  · by_contra h
    simp [OneDimDistance.distance, h] at hl
  · refine ⟨x.map fun b => |b - f[i]|, by simp [OneDimDistance.distance, hi], by simpa using hx, ?_⟩
    intro y hy
    obtain ⟨b, hb, rfl⟩ := List.mem_map.1 hy
    exact ⟨abs_nonneg _, hmax _ (List.getElem_mem hi) b hb⟩

example : ∃ M m, (⟨some ([0, 1], [3, 4])⟩ : OneDimDistance).maxDistance = .ok M ∧
    (⟨some ([0, 1], [3, 4])⟩ : OneDimDistance).minDistance = .ok m ∧
    SharpBounds (⟨some ([0, 1], [3, 4])⟩ : OneDimDistance).distance M m :=
  C08_oneDim_sharp _ _ (by simp) (by simp) (by
    have h4 : (4 : ℝ) ≤ dblMax := by linarith [hundred_lt_dblMax]
    intro a ha b hb
    simp only [List.mem_cons, List.not_mem_nil, or_false] at ha hb
    rcases ha with rfl | rfl <;> rcases hb with rfl | rfl <;> norm_num <;> linarith)

/-! ### C11 with an angle -/

/-- **C11 (angle).** For every angle the planar Minkowski object with exponent 1 returns the Chebyshev distance, and with exponent
−1 the Manhattan distance, of the coordinates rotated by that angle. -/
theorem C11_rotated (fp dp : DynMat) (θ : ℝ) (i : ℕ) (hi : i < fp.nRows) :
    let dx := fun j => (dp.val j 0 - fp.val i 0) * Real.cos θ - (dp.val j 1 - fp.val i 1) * Real.sin θ
    let dy := fun j => (dp.val j 0 - fp.val i 0) * Real.sin θ + (dp.val j 1 - fp.val i 1) * Real.cos θ
    (⟨⟨false, some (fp, dp)⟩, 1, θ⟩ : MinkwoskiDistance).distance i =
      .ok ((List.range dp.nRows).map fun j => max |dx j| |dy j|) ∧
    (⟨⟨false, some (fp, dp)⟩, -1, θ⟩ : MinkwoskiDistance).distance i =
      .ok ((List.range dp.nRows).map fun j => |dx j| + |dy j|) := by
  intro dx dy
  have h1 : ¬ ((-1 : ℝ) = 1) := by norm_num
  have h2 : ¬ ((-1 : ℝ) = 2) := by norm_num
  have h3 : ¬ ((1 : ℝ) = 2) := by norm_num
  by_cases ht : θ = 0
  · subst ht
    simp [MinkwoskiDistance.distance, hi, h1, h2, h3, chessDist, manhattonDist, dx, dy]
  · constructor
    · simp only [MinkwoskiDistance.distance, Bool.false_eq_true, if_false, hi, if_true, ne_eq, h3, not_false_eq_true, ht,
        and_self, chessDist, rotate, one_ne_zero]
      congr 2
      funext j
      simp only [dx, dy]
      congr 2 <;> ring
    · simp only [MinkwoskiDistance.distance, Bool.false_eq_true, if_false, hi, if_true, ne_eq, h1, h2, not_false_eq_true, ht,
        and_self, manhattonDist, rotate, one_ne_zero]
      congr 2
      funext j
      simp only [dx, dy]
      congr 2 <;> ring

/-! ### C12 in terms of coordinates and times -/

theorem st_make_ok (d : CRSSTDistance) (g : Bool) (p : Option (DynMat × DynMat)) (q : OneDimDistance)
    (hs : d.mSpatial = some ⟨g, p⟩) (ht : d.mTemporal = some q) (fp dp : DynMat) (n : ℕ) (ft dt : Fin n → ℝ)
    (hf : fp.nRows = n) (hd : dp.nRows = n) (hcf : fp.nCols = 2) (hcd : dp.nCols = 2) :
    d.makeParameter [.mat fp, .mat dp, .vec (List.ofFn ft), .vec (List.ofFn dt)] =
      ({ d with mSpatial := some ⟨g, some (fp, dp)⟩, mTemporal := some ⟨some (List.ofFn ft, List.ofFn dt)⟩,
                mParameter := some n }, .ok ()) := by
  simp [CRSSTDistance.makeParameter, DistParam.getMat, DistParam.getVec, hf, hd, hs, ht, CRSDistance.makeParameter, hcf, hcd,
    OneDimDistance.makeParameter]

theorem st_value (lam c x y t x' y' t' : ℝ) (h0 : 0 ≤ lam) (h1 : lam ≤ 1) (he : lam = 1 ∨ 1e-16 ≤ 1 - lam) :
    (let u := if |lam - 1| < 1e-16 then |t' - t| else t - t'
     if u < 0 then futureSentinel else stCombine lam c √((x' - x) * (x' - x) + (y' - y) * (y' - y)) u) =
      spaceTime lam c x y t x' y' t' := by
  have hs : √((x' - x) * (x' - x) + (y' - y) * (y' - y)) = √((x' - x) ^ 2 + (y' - y) ^ 2) := by
    congr 1; ring
  rw [hs]
  rcases he with he | he
  · subst he
    have h2 : |(1 : ℝ) - 1| < 1e-16 := by norm_num
    have h3 : ¬ |t - t'| < 0 := not_lt.2 (abs_nonneg _)
    simp only [h2, if_true, if_false, spaceTime, ne_eq, not_true_eq_false, false_and, stCombine,
      abs_sub_comm t' t, h3]
  · have hne : lam ≠ 1 := by
      rintro rfl
      norm_num at he
    have h2 : ¬ |lam - 1| < 1e-16 := by
      rw [abs_sub_comm, abs_of_nonneg (by linarith)]
      exact not_lt.2 he
    simp only [h2, if_false, spaceTime, ne_eq, hne, not_false_eq_true, true_and, sub_neg]
    by_cases h : t < t'
    · rw [if_pos h, if_pos h]; norm_num [futureSentinel]
    · rw [if_neg h, if_neg h, abs_of_nonneg (by linarith [not_lt.1 h])]
      rfl

theorem st_distance_eq (cal : STCalc) (fp dp : DynMat) (n : ℕ) (ft dt : Fin n → ℝ) (hf : fp.nRows = n) (hd : dp.nRows = n)
    (lam a : ℝ) (h0 : 0 ≤ lam) (h1 : lam ≤ 1) (he : lam = 1 ∨ 1e-16 ≤ 1 - lam) (i : Fin n) :
    stDistance cal ⟨false, some (fp, dp)⟩ ⟨some (List.ofFn ft, List.ofFn dt)⟩ i lam a =
      .ok (List.ofFn fun j : Fin n =>
        spaceTime lam (match cal with | .orthogonal => 1 | .oblique => Real.cos a)
          (fp.val i 0) (fp.val i 1) (ft i) (dp.val j 0) (dp.val j 1) (dt j)) := by
  have hs : (⟨false, some (fp, dp)⟩ : CRSDistance).distance i =
      .ok (List.ofFn fun j : Fin n => euclid (fp.val i) (dp.val j)) := by
    simp only [CRSDistance.distance, hf, i.isLt, if_true]
    rw [crsDistRow_planar, hd]
    congr 1
    apply List.ext_getElem
    · simp
    · intro k h1 h2; simp
  have ht : (if |lam - 1| < 1e-16 then (⟨some (List.ofFn ft, List.ofFn dt)⟩ : OneDimDistance).distance i
      else (⟨some (List.ofFn ft, List.ofFn dt)⟩ : OneDimDistance).noAbsdistance i) =
      .ok (List.ofFn fun j : Fin n => if |lam - 1| < 1e-16 then |dt j - ft i| else ft i - dt j) := by
    split
    · simp [OneDimDistance.distance, List.map_ofFn, Function.comp_def]
    · simp [OneDimDistance.noAbsdistance, List.map_ofFn, Function.comp_def]
  unfold stDistance
  rw [hs]
  simp only [Res.bind]
  rw [ht]
  simp only [List.length_ofFn, ne_eq, not_true_eq_false, if_false]
  congr 1
  apply List.ext_getElem
  · simp
  · intro k k1 k2
    simp only [List.getElem_zipWith, List.getElem_ofFn]
    exact st_value lam _ (fp.val i 0) (fp.val i 1) (ft i) _ _ _ h0 h1 he

/-- **C12 (formula).** A spatio-temporal distance constructed from a planar distance with λ in `[0,1]` (`1 - λ` not a positive number
below `1e-16`, which no double is), given `n` coordinates and times, returns for focus `i` the combination
`λ s + (1−λ) u + 2 √(λ(1−λ) s u)` of the Euclidean distance `s` and the elapsed time `u`, and `10¹³` for observations of the
future. With an angle strictly between −π/2 and π/2 the last term is multiplied by its cosine. -/
theorem C12_formula (p : Option (DynMat × DynMat)) (q : OneDimDistance) (lam angle : ℝ) (h0 : 0 ≤ lam) (h1 : lam ≤ 1)
    (he : lam = 1 ∨ 1e-16 ≤ 1 - lam) (ha : -(Real.pi / 2) < angle) (ha' : angle < Real.pi / 2)
    (ha'' : 1e-15 ≤ Real.pi / 2 - angle) (fp dp : DynMat) (n : ℕ) (ft dt : Fin n → ℝ)
    (hf : fp.nRows = n) (hd : dp.nRows = n) (hcf : fp.nCols = 2) (hcd : dp.nCols = 2) (i : Fin n) :
    let args := [.mat fp, .mat dp, .vec (List.ofFn ft), .vec (List.ofFn dt)]
    ((CRSSTDistance.new ⟨false, p⟩ q lam).makeParameter args).2 = .ok () ∧
    ((CRSSTDistance.new ⟨false, p⟩ q lam).makeParameter args).1.distance i =
      .ok (List.ofFn fun j : Fin n =>
        spaceTime lam 1 (fp.val i 0) (fp.val i 1) (ft i) (dp.val j 0) (dp.val j 1) (dt j)) ∧
    ((CRSSTDistance.newAngle ⟨false, p⟩ q lam angle).makeParameter args).2 = .ok () ∧
    ((CRSSTDistance.newAngle ⟨false, p⟩ q lam angle).makeParameter args).1.distance i =
      .ok (List.ofFn fun j : Fin n =>
        spaceTime lam (Real.cos angle) (fp.val i 0) (fp.val i 1) (ft i) (dp.val j 0) (dp.val j 1) (dt j)) := by
  intro args
  have e1 := st_make_ok (CRSSTDistance.new ⟨false, p⟩ q lam) false _ _ rfl rfl fp dp n ft dt hf hd hcf hcd
  have e2 := st_make_ok (CRSSTDistance.newAngle ⟨false, p⟩ q lam angle) false _ _ rfl rfl fp dp n ft dt hf hd hcf hcd
  have hat : Real.arctan (Real.tan angle) = angle := Real.arctan_tan ha ha'
  have hab : ¬ |angle - Real.pi / 2| < 1e-15 := by
    rw [abs_sub_comm, abs_of_pos (by linarith)]; exact not_lt.2 ha''
  refine ⟨by rw [e1], ?_, by rw [e2], ?_⟩
  · rw [e1]
    exact st_distance_eq .orthogonal fp dp n ft dt hf hd lam (Real.pi / 2) h0 h1 he i
  · rw [e2]
    have : (CRSSTDistance.newAngle ⟨false, p⟩ q lam angle).mCalc = .oblique := by
      simp only [CRSSTDistance.newAngle, hat, if_neg hab]
    have h3 : (CRSSTDistance.newAngle ⟨false, p⟩ q lam angle).mAngle = angle := by
      simp only [CRSSTDistance.newAngle, hat]
    simp only [CRSSTDistance.distance, this, h3]
    exact st_distance_eq .oblique fp dp n ft dt hf hd lam angle h0 h1 he i

/-- **C12/C09 (argument check).** `makeParameter` of the spatio-temporal distance accepts exactly: four arguments, two matrices of
two columns and two vectors, all with the same number of rows (inner objects present). -/
theorem C12_makeParameter_accepts (d : CRSSTDistance) (s : CRSDistance) (t : OneDimDistance) (hs : d.mSpatial = some s)
    (ht : d.mTemporal = some t) (args : List DistParam) :
    (d.makeParameter args).2 = .ok () ↔
      ∃ (fp dp : DynMat) (ft dt : List ℝ), args = [.mat fp, .mat dp, .vec ft, .vec dt] ∧ fp.nCols = 2 ∧ dp.nCols = 2 ∧
        fp.nRows = dp.nRows ∧ fp.nRows = ft.length ∧ fp.nRows = dt.length := by
  constructor
  · intro h
    match args, h with
    | [p1, p2, p3, p4], h =>
      cases p1 <;> cases p2 <;> cases p3 <;> cases p4 <;>
        simp only [CRSSTDistance.makeParameter, DistParam.getMat, DistParam.getVec, reduceCtorEq] at h
      rename_i fp dp ft dt
      by_cases hc : fp.nRows = dp.nRows ∧ dp.nRows = ft.length ∧ ft.length = dt.length
      · by_cases h2 : fp.nCols = 2 ∧ dp.nCols = 2
        · exact ⟨fp, dp, ft, dt, rfl, h2.1, h2.2, hc.1, hc.1.trans hc.2.1, hc.1.trans (hc.2.1.trans hc.2.2)⟩
        · simp [hc, hs, ht, CRSDistance.makeParameter, DistParam.getMat, h2] at h
      · simp [hc] at h
    | [], h => simp [CRSSTDistance.makeParameter] at h
    | [_], h => simp [CRSSTDistance.makeParameter] at h
    | [_, _], h => simp [CRSSTDistance.makeParameter] at h
    | [_, _, _], h => simp [CRSSTDistance.makeParameter] at h
    | _ :: _ :: _ :: _ :: _ :: _, h => simp [CRSSTDistance.makeParameter] at h
  · rintro ⟨fp, dp, ft, dt, rfl, h1, h2, h3, h4, h5⟩
    simp [CRSSTDistance.makeParameter, DistParam.getMat, DistParam.getVec, hs, ht, CRSDistance.makeParameter, h1, h2, ← h3, ← h4, ← h5,
      OneDimDistance.makeParameter]

/-- **C08 (space-time).** After a successful `makeParameter` on a planar object with λ in `[0,1]` and at least one observation, the
reported maximum and minimum are bounds of all distances and attained. -/
theorem C08_spaceTime_sharp (p : Option (DynMat × DynMat)) (q : OneDimDistance) (lam : ℝ) (h0 : 0 ≤ lam) (h1 : lam ≤ 1)
    (he : lam = 1 ∨ 1e-16 ≤ 1 - lam) (fp dp : DynMat) (n : ℕ) (hn : 0 < n) (ft dt : Fin n → ℝ)
    (hf : fp.nRows = n) (hd : dp.nRows = n) (hcf : fp.nCols = 2) (hcd : dp.nCols = 2)
    (hmax : ∀ i j : Fin n, spaceTime lam 1 (fp.val i 0) (fp.val i 1) (ft i) (dp.val j 0) (dp.val j 1) (dt j) ≤ dblMax) :
    let d := ((CRSSTDistance.new ⟨false, p⟩ q lam).makeParameter
      [.mat fp, .mat dp, .vec (List.ofFn ft), .vec (List.ofFn dt)]).1
    ∃ M m, d.maxDistance = .ok M ∧ d.minDistance = .ok m ∧ SharpBounds d.distance M m := by
  intro d
  have e1 := st_make_ok (CRSSTDistance.new ⟨false, p⟩ q lam) false _ _ rfl rfl fp dp n ft dt hf hd hcf hcd
  have hdd : d = { CRSSTDistance.new ⟨false, p⟩ q lam with
      mSpatial := some ⟨false, some (fp, dp)⟩, mTemporal := some ⟨some (List.ofFn ft, List.ofFn dt)⟩, mParameter := some n } := by
    simp only [d, e1]
  have hrow : ∀ i : Fin n, d.distance i = .ok (List.ofFn fun j : Fin n =>
        spaceTime lam 1 (fp.val i 0) (fp.val i 1) (ft i) (dp.val j 0) (dp.val j 1) (dt j)) := fun i => by
    rw [hdd]
    exact st_distance_eq .orthogonal fp dp n ft dt hf hd lam (Real.pi / 2) h0 h1 he i
  have hN : d.mParameter = some n := by rw [hdd]
  simp only [CRSSTDistance.maxDistance, CRSSTDistance.minDistance, hN]
  refine loops_sharp _ n hn (fun i l hl => ?_) fun i hi => ?_
  · by_contra h
    rw [hdd] at hl
    simp [CRSSTDistance.distance, stDistance, CRSDistance.distance, hf, h, Res.bind] at hl
  · refine ⟨_, hrow ⟨i, hi⟩, by simp [List.ofFn_eq_nil_iff]; omega, ?_⟩
    intro y hy
    obtain ⟨j, rfl⟩ := (List.mem_ofFn' _ _).1 hy
    refine ⟨?_, hmax _ _⟩
    unfold spaceTime
    dsimp only
    split
    · norm_num
    · have := Real.sqrt_nonneg ((dp.val j 0 - fp.val i 0) ^ 2 + (dp.val j 1 - fp.val i 1) ^ 2)
      have h3 := abs_nonneg (ft ⟨i, hi⟩ - dt j)
      have h4 : 0 ≤ 1 - lam := by linarith
      positivity

/-- Non-trivial case of the space-time formula: λ = 1/2, observation 2 away in space and 2 earlier in time: 1 + 1 + 2. -/
example : spaceTime (1 / 2) 1 0 0 5 2 0 3 = 4 := by
  have h : √(4 : ℝ) = 2 := by rw [show (4 : ℝ) = 2 ^ 2 by norm_num]; exact Real.sqrt_sq (by norm_num)
  norm_num [spaceTime, h]

end Verif.Props

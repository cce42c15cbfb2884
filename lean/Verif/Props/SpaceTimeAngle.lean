import Verif.Props.Formulas
import Verif.Props.Distance
import Mathlib.Analysis.SpecialFunctions.Trigonometric.Arctan
import Mathlib.Analysis.SpecialFunctions.Trigonometric.Bounds

/-! # C137: the angle between space and time; C10 for configured copies of space-time distances -/

namespace Verif.Props
open Verif Verif.Model Verif.Spec Matrix Classical

/-- The cosine of the angle an object keeps is the absolute value of the cosine of the angle it was given. -/
theorem cos_arctan_tan {θ : ℝ} (h : Real.cos θ ≠ 0) : Real.cos (Real.arctan (Real.tan θ)) = |Real.cos θ| := by
  have hsq : Real.cos (Real.arctan (Real.tan θ)) ^ 2 = |Real.cos θ| ^ 2 := by
    rw [Real.cos_sq_arctan, sq_abs, Real.tan_eq_sin_div_cos]
    have := Real.sin_sq_add_cos_sq θ
    field_simp
    nlinarith
  exact (sq_eq_sq₀ (Real.cos_arctan_pos _).le (abs_nonneg _)).1 hsq

/-- **C137 (what the angle does).** For every angle θ that is not a right angle (up to `1e-15`), an object constructed with λ in `[0,1]` and θ gives the
combination of distance and elapsed time with the factor `|cos θ|`: the absolute value of the cosine, whatever quadrant θ is in. -/
theorem C137_any_angle (p : Option (DynMat × DynMat)) (q : OneDimDistance) (lam θ : ℝ) (h0 : 0 ≤ lam) (h1 : lam ≤ 1)
    (he : lam = 1 ∨ 1e-16 ≤ 1 - lam) (hθ : 1e-15 ≤ |Real.cos θ|) (fp dp : DynMat) (n : ℕ) (ft dt : Fin n → ℝ)
    (hf : fp.nRows = n) (hd : dp.nRows = n) (hcf : fp.nCols = 2) (hcd : dp.nCols = 2) (i : Fin n) :
    let made := (CRSSTDistance.newAngle ⟨false, p⟩ q lam θ).makeParameter [.mat fp, .mat dp, .vec (List.ofFn ft), .vec (List.ofFn dt)]
    made.2 = .ok () ∧ made.1.distance i = .ok (List.ofFn fun j : Fin n =>
        spaceTime lam |Real.cos θ| (fp.val i 0) (fp.val i 1) (ft i) (dp.val j 0) (dp.val j 1) (dt j)) := by
  intro made
  have e2 := st_make_ok (CRSSTDistance.newAngle ⟨false, p⟩ q lam θ) false _ _ rfl rfl fp dp n ft dt hf hd hcf hcd
  have hc0 : Real.cos θ ≠ 0 := fun h => by rw [h, abs_zero] at hθ; norm_num at hθ
  have hcos := cos_arctan_tan hc0
  set a := Real.arctan (Real.tan θ) with ha
  have hab : ¬ |a - Real.pi / 2| < 1e-15 := by
    intro h
    have hlt : a < Real.pi / 2 := Real.arctan_lt_pi_div_two _
    rw [abs_sub_comm, abs_of_pos (by linarith)] at h
    have : Real.cos a ≤ Real.pi / 2 - a := by
      rw [← Real.sin_pi_div_two_sub]
      exact Real.sin_le (by linarith)
    linarith
  have hcal : (CRSSTDistance.newAngle ⟨false, p⟩ q lam θ).mCalc = .oblique := by
    simp only [CRSSTDistance.newAngle]
    rw [← ha, if_neg hab]
  refine ⟨by simp only [made]; rw [e2], ?_⟩
  simp only [made]
  rw [e2]
  simp only [CRSSTDistance.distance, hcal]
  have := st_distance_eq .oblique fp dp n ft dt hf hd lam a h0 h1 he i
  simp only [hcos] at this
  exact this

/-- Past observations at another place, and λ strictly between 0 and 1: a larger factor means a larger distance. -/
theorem spaceTime_factor {lam c c' x y t x' y' t' : ℝ} (h0 : 0 < lam) (h1 : lam < 1) (hp : (x', y') ≠ (x, y)) (ht : t' < t) (hc : c < c') :
    spaceTime lam c x y t x' y' t' < spaceTime lam c' x y t x' y' t' := by
  have hs : 0 < √((x' - x) ^ 2 + (y' - y) ^ 2) := by
    refine Real.sqrt_pos.2 ?_
    by_contra hcon
    have h2 : (x' - x) ^ 2 = 0 := by nlinarith [sq_nonneg (x' - x), sq_nonneg (y' - y)]
    have h3 : (y' - y) ^ 2 = 0 := by nlinarith [sq_nonneg (x' - x), sq_nonneg (y' - y)]
    exact hp (Prod.ext (by linarith [pow_eq_zero_iff (two_ne_zero) |>.1 h2]) (by linarith [pow_eq_zero_iff (two_ne_zero) |>.1 h3]))
  have hu : 0 < |t - t'| := abs_pos.2 (by linarith)
  have hr : 0 < √(lam * (1 - lam) * √((x' - x) ^ 2 + (y' - y) ^ 2) * |t - t'|) :=
    Real.sqrt_pos.2 (by have : 0 < 1 - lam := by linarith
                        positivity)
  have hf : ¬ (lam ≠ 1 ∧ t < t') := fun h => by linarith [h.2]
  simp only [spaceTime, if_neg hf]
  nlinarith

/-- **C137 fails for obtuse angles**: the distance to every past observation at another place is larger than the formula with `cos θ` gives, because the
mixed term is added and not subtracted (the constructor keeps `atan (tan θ)`, which is acute). -/
theorem C137_obtuse_fails (p : Option (DynMat × DynMat)) (q : OneDimDistance) (lam θ : ℝ) (h0 : 0 < lam) (h1 : lam < 1)
    (he : 1e-16 ≤ 1 - lam) (hθ : Real.cos θ ≤ -1e-15) (fp dp : DynMat) (n : ℕ) (ft dt : Fin n → ℝ)
    (hf : fp.nRows = n) (hd : dp.nRows = n) (hcf : fp.nCols = 2) (hcd : dp.nCols = 2) (i j : Fin n)
    (hp : (dp.val j 0, dp.val j 1) ≠ (fp.val i 0, fp.val i 1)) (ht : dt j < ft i) :
    ∃ l : List ℝ, ((CRSSTDistance.newAngle ⟨false, p⟩ q lam θ).makeParameter [.mat fp, .mat dp, .vec (List.ofFn ft), .vec (List.ofFn dt)]).1.distance i =
        .ok l ∧ ∃ v, l[j.val]? = some v ∧
        spaceTime lam (Real.cos θ) (fp.val i 0) (fp.val i 1) (ft i) (dp.val j 0) (dp.val j 1) (dt j) < v := by
  have hneg : Real.cos θ < 0 := lt_of_le_of_lt hθ (by norm_num)
  have := (C137_any_angle p q lam θ h0.le h1.le (.inr he) (by rw [abs_of_neg hneg]; linarith) fp dp n ft dt hf hd hcf hcd i).2
  refine ⟨_, this, spaceTime lam |Real.cos θ| (fp.val i 0) (fp.val i 1) (ft i) (dp.val j 0) (dp.val j 1) (dt j), by simp, ?_⟩
  exact spaceTime_factor h0 h1 hp ht (by rw [abs_of_neg hneg]; linarith)

/-- **C137 fails for the right angle**, which is the documented default: an object constructed without an angle uses the full mixed term, as if the angle
were 0, and not none. Its distance to every past observation at another place exceeds `λ s + (1 − λ) u` and that of every object with an angle close to a
right one. -/
theorem C137_default_fails (p : Option (DynMat × DynMat)) (q : OneDimDistance) (lam : ℝ) (h0 : 0 < lam) (h1 : lam < 1)
    (he : 1e-16 ≤ 1 - lam) (fp dp : DynMat) (n : ℕ) (ft dt : Fin n → ℝ)
    (hf : fp.nRows = n) (hd : dp.nRows = n) (hcf : fp.nCols = 2) (hcd : dp.nCols = 2) (i j : Fin n)
    (hp : (dp.val j 0, dp.val j 1) ≠ (fp.val i 0, fp.val i 1)) (ht : dt j < ft i) :
    ∃ l : List ℝ, ((CRSSTDistance.new ⟨false, p⟩ q lam).makeParameter [.mat fp, .mat dp, .vec (List.ofFn ft), .vec (List.ofFn dt)]).1.distance i =
        .ok l ∧ ∃ v, l[j.val]? = some v ∧
        v = spaceTime lam (Real.cos 0) (fp.val i 0) (fp.val i 1) (ft i) (dp.val j 0) (dp.val j 1) (dt j) ∧
        ∀ θ, |Real.cos θ| < 1 → spaceTime lam (Real.cos θ) (fp.val i 0) (fp.val i 1) (ft i) (dp.val j 0) (dp.val j 1) (dt j) < v := by
  have := (C12_formula p q lam 0 h0.le h1.le (.inr he) (by linarith [Real.pi_pos]) (by linarith [Real.pi_pos]) (by linarith [Real.two_le_pi])
    fp dp n ft dt hf hd hcf hcd i).2.1
  refine ⟨_, this, spaceTime lam 1 (fp.val i 0) (fp.val i 1) (ft i) (dp.val j 0) (dp.val j 1) (dt j), by simp, by rw [Real.cos_zero], fun θ hθ => ?_⟩
  exact spaceTime_factor h0 h1 hp ht (abs_lt.1 hθ).2

/-- **C10 (space-time distance, configured copies).** A copy of a space-time distance loses the locations and times, but once it is given them again it
answers as the original does when given the same: it has the same λ, angle and formula. -/
theorem C10_st_clone_configured (d d' e : CRSSTDistance) (h : d.clone = .ok d') (args : List DistParam) (hm : d.makeParameter args = (e, .ok ())) :
    ∃ e', d'.makeParameter args = (e', .ok ()) ∧ (∀ focus, e'.distance focus = e.distance focus) ∧ e'.maxDistance = e.maxDistance ∧
      e'.minDistance = e.minDistance := by
  obtain ⟨s, t, lam, ang, cal, par⟩ := d
  cases s with
  | none => simp [CRSSTDistance.clone] at h; split at h <;> cases h
  | some s =>
    cases t with
    | none => simp [CRSSTDistance.clone] at h; split at h <;> cases h
    | some t =>
      simp only [CRSSTDistance.clone] at h
      split at h
      · cases Res.ok.inj h
        have hacc := (C12_makeParameter_accepts ⟨some s, some t, lam, ang, cal, par⟩ s t rfl rfl args).1 (by rw [hm])
        obtain ⟨fp, dp, ft, dt, rfl, c1, c2, r1, r2, r3⟩ := hacc
        have hx : ∀ (s : CRSDistance) (t : OneDimDistance) (par : Option ℕ), (⟨some s, some t, lam, ang, cal, par⟩ : CRSSTDistance).makeParameter
            [.mat fp, .mat dp, .vec ft, .vec dt] = (⟨some ⟨s.mGeographic, some (fp, dp)⟩, some ⟨some (ft, dt)⟩, lam, ang, cal, some fp.nRows⟩, .ok ()) := by
          intro s t par
          simp [CRSSTDistance.makeParameter, DistParam.getMat, DistParam.getVec, CRSDistance.makeParameter, c1, c2, ← r1, ← r2, ← r3,
            OneDimDistance.makeParameter]
        rw [hx] at hm
        cases (Prod.mk.inj hm).1
        exact ⟨_, hx s.clone t.clone none, fun _ => by rw [crs_clone_eq], by rw [crs_clone_eq], by rw [crs_clone_eq]⟩
      · cases h

/-! ### Concrete cases -/

/-- Two places, `(0,0)` and `(3,4)`. -/
def angPlaces : DynMat := ⟨2, 2, fun i j => if i = 0 then 0 else if j = 0 then 3 else 4⟩

/-- Observation 0 is at time 2, observation 1 at time 1. -/
def angTimes : Fin 2 → ℝ := fun i => if i = 0 then 2 else 1

theorem cos_two_thirds : Real.cos (2 * Real.pi / 3) = -(1 / 2) := by
  rw [show 2 * Real.pi / 3 = Real.pi - Real.pi / 3 by ring, Real.cos_pi_sub, Real.cos_pi_div_three]

/-- 120 degrees: the hypotheses of `C137_any_angle` and `C137_obtuse_fails` hold, and the factor is `+1/2`. -/
example : ∃ l : List ℝ, ((CRSSTDistance.newAngle ⟨false, none⟩ ⟨none⟩ (1 / 2) (2 * Real.pi / 3)).makeParameter
      [.mat angPlaces, .mat angPlaces, .vec (List.ofFn angTimes), .vec (List.ofFn angTimes)]).1.distance (0 : Fin 2) = .ok l ∧
      ∃ v, l[(1 : Fin 2).val]? = some v ∧ spaceTime (1 / 2) (Real.cos (2 * Real.pi / 3)) 0 0 2 3 4 1 < v := by
  have := C137_obtuse_fails none ⟨none⟩ (1 / 2) (2 * Real.pi / 3) (by norm_num) (by norm_num) (by norm_num) (by rw [cos_two_thirds]; norm_num)
    angPlaces angPlaces 2 angTimes angTimes rfl rfl rfl rfl 0 1 (by simp [angPlaces]) (by simp [angTimes])
  simpa [angPlaces, angTimes] using this

example : (1e-15 : ℝ) ≤ |Real.cos (2 * Real.pi / 3)| ∧ |Real.cos (2 * Real.pi / 3)| = 1 / 2 := by
  rw [cos_two_thirds]; norm_num

/-- No angle given: the distance exceeds that at a right angle, `λ s + (1 − λ) u = 3`. -/
example : ∃ l : List ℝ, ((CRSSTDistance.new ⟨false, none⟩ ⟨none⟩ (1 / 2)).makeParameter
      [.mat angPlaces, .mat angPlaces, .vec (List.ofFn angTimes), .vec (List.ofFn angTimes)]).1.distance (0 : Fin 2) = .ok l ∧
      ∃ v, l[(1 : Fin 2).val]? = some v ∧ 3 < v := by
  obtain ⟨l, h1, v, h2, -, h3⟩ := C137_default_fails none ⟨none⟩ (1 / 2) (by norm_num) (by norm_num) (by norm_num)
    angPlaces angPlaces 2 angTimes angTimes rfl rfl rfl rfl 0 1 (by simp [angPlaces]) (by simp [angTimes])
  refine ⟨l, h1, v, h2, lt_of_eq_of_lt ?_ (h3 (Real.pi / 2) (by simp))⟩
  have : √((3 : ℝ) ^ 2 + 4 ^ 2) = 5 := by rw [show (3 : ℝ) ^ 2 + 4 ^ 2 = 5 ^ 2 by norm_num]; exact Real.sqrt_sq (by norm_num)
  simp [spaceTime, angPlaces, angTimes, this]
  norm_num

/-- A copy of an oblique object, given the same places and times as the original. -/
example : ∃ d' e, (CRSSTDistance.newAngle ⟨false, none⟩ ⟨none⟩ (1 / 2) (2 * Real.pi / 3)).clone = .ok d' ∧ d'.mCalc = .oblique ∧
    (CRSSTDistance.newAngle ⟨false, none⟩ ⟨none⟩ (1 / 2) (2 * Real.pi / 3)).makeParameter
      [.mat angPlaces, .mat angPlaces, .vec (List.ofFn angTimes), .vec (List.ofFn angTimes)] = (e, .ok ()) := by
  have hcal : (CRSSTDistance.newAngle ⟨false, none⟩ ⟨none⟩ (1 / 2) (2 * Real.pi / 3)).mCalc = .oblique := by
    have h := cos_arctan_tan (θ := 2 * Real.pi / 3) (by rw [cos_two_thirds]; norm_num)
    rw [cos_two_thirds] at h
    simp only [CRSSTDistance.newAngle]
    rw [if_neg]
    intro hlt
    have hb := Real.arctan_lt_pi_div_two (Real.tan (2 * Real.pi / 3))
    rw [abs_sub_comm, abs_of_pos (by linarith)] at hlt
    have h2 : Real.cos (Real.arctan (Real.tan (2 * Real.pi / 3))) ≤ Real.pi / 2 - Real.arctan (Real.tan (2 * Real.pi / 3)) := by
      rw [← Real.sin_pi_div_two_sub]
      exact Real.sin_le (by linarith)
    rw [h] at h2
    norm_num at h2
    norm_num at hlt
    linarith
  have hm := st_make_ok (CRSSTDistance.newAngle ⟨false, none⟩ ⟨none⟩ (1 / 2) (2 * Real.pi / 3)) false _ _ rfl rfl angPlaces angPlaces 2
    angTimes angTimes rfl rfl rfl rfl
  have hcl : ∃ d', (CRSSTDistance.newAngle ⟨false, none⟩ ⟨none⟩ (1 / 2) (2 * Real.pi / 3)).clone = .ok d' ∧
      d'.mCalc = (CRSSTDistance.newAngle ⟨false, none⟩ ⟨none⟩ (1 / 2) (2 * Real.pi / 3)).mCalc := by
    have hl : (0 : ℝ) ≤ 1 / 2 ∧ (1 / 2 : ℝ) ≤ 1 := by norm_num
    exact ⟨_, if_pos hl, rfl⟩
  obtain ⟨d', h1, h2⟩ := hcl
  exact ⟨d', _, h1, h2.trans hcal, hm⟩

end Verif.Props

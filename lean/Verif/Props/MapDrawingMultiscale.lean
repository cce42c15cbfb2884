import Verif.Props.MapDrawingSearch
import Verif.Cases.MultiscaleModes

/-! # C147: turning and shifting the map does not matter for multiscale regression; basic regression in every mode -/

namespace Verif.Props
open Verif Verif.Model Verif.Spec Matrix Classical

variable {n k m p : ℕ}

theorem weightVector_moved {s : ℝ} (hs : 0 < s) (θ t₀ t₁ : ℝ) (at₀ obs : DynMat) {b : BandwidthWeight} (ha : b.mAdaptive = true ∨ s = 1) (n i : ℕ) :
    weightVector ⟨false, some (movedPoints s θ t₀ t₁ at₀, movedPoints s θ t₀ t₁ obs)⟩ b n i = weightVector ⟨false, some (at₀, obs)⟩ b n i := by
  unfold weightVector
  rw [distance_moved hs]
  cases (CRSDistance.mk false (some (at₀, obs))).distance i with
  | ok l =>
    simp only [Res.bind]
    unfold rowToVec
    by_cases hl : l.length = n
    · rw [dif_pos hl, dif_pos (by simpa using hl)]
      simp only [Res.bind, List.getElem_map]
      rcases ha with ha | rfl
      · exact weight_scale hs ha _
      · simp only [one_mul]
    · rw [dif_neg hl, dif_neg (by simpa using hl)]
  | _ => rfl

theorem minDistance_moved (θ t₀ t₁ : ℝ) (at₀ obs : DynMat) :
    (CRSDistance.mk false (some (movedPoints 1 θ t₀ t₁ at₀, movedPoints 1 θ t₀ t₁ obs))).minDistance = (CRSDistance.mk false (some (at₀, obs))).minDistance := by
  unfold CRSDistance.minDistance
  have h : crsDistRow false (movedPoints 1 θ t₀ t₁ at₀) (movedPoints 1 θ t₀ t₁ obs) = crsDistRow false at₀ obs := by
    funext i
    rw [row_moved one_pos]
    cases crsDistRow false at₀ obs i <;> simp [Res.bind]
  simp only [h]
  rfl

theorem criterionEx_moved {s : ℝ} (hs : 0 < s) (θ t₀ t₁ : ℝ) (coords : DynMat) (c : Crit) (x : Matrix (Fin n) (Fin k) ℝ) (y : Fin n → ℝ)
    {b : BandwidthWeight} (ha : b.mAdaptive = true ∨ s = 1) (e : Exec n) :
    gwrCriterionEx c ⟨false, some (movedPoints s θ t₀ t₁ coords, movedPoints s θ t₀ t₁ coords)⟩ x y b e =
      gwrCriterionEx c ⟨false, some (coords, coords)⟩ x y b e := by
  cases e with
  | serial => simp only [gwrCriterionEx, gwrCriterion, weightRows_moved hs θ t₀ t₁ coords coords ha n n]
  | omp evs => simp only [gwrCriterionEx, gwrCriterionOmp, weightVector_moved hs θ t₀ t₁ coords coords ha]

theorem searchEx_moved {s : ℝ} (hs : 0 < s) (θ t₀ t₁ : ℝ) (coords : DynMat) (c : Crit) (sched : ℕ → Exec n) (x : Matrix (Fin n) (Fin k) ℝ) (y : Fin n → ℝ)
    {b0 : BandwidthWeight} (ha : b0.mAdaptive = true ∨ s = 1) (lower upper : Option ℝ) :
    gwrSearchEx c sched ⟨false, some (movedPoints s θ t₀ t₁ coords, movedPoints s θ t₀ t₁ coords)⟩ b0 lower upper x y =
      gwrSearchEx c sched ⟨false, some (coords, coords)⟩ b0 lower upper x y := by
  unfold gwrSearchEx
  have hu : gwrUpper ⟨false, some (movedPoints s θ t₀ t₁ coords, movedPoints s θ t₀ t₁ coords)⟩ b0 n upper = gwrUpper ⟨false, some (coords, coords)⟩ b0 n upper := by
    cases upper with
    | some u => rfl
    | none => exact upper_moved θ t₀ t₁ coords ha n
  rw [hu]
  cases gwrUpper ⟨false, some (coords, coords)⟩ b0 n upper with
  | ok u =>
    simp only [Res.bind]
    congr 1
    exact optimize_same (P := fun b => b.mAdaptive = true ∨ s = 1) (fun j w hw => by rw [criterionEx_moved hs θ t₀ t₁ coords c x y hw]) fun e _ => ha
  | _ => rfl

/-- **C147 (selection, basic regression in every mode).** Also when bounds of the search are given, together with the list of bandwidths tried. -/
theorem C147_basic_selection_any_mode (c : Crit) (sched : ℕ → Exec n) (ex : Exec n) (par par' : Option (DynMat × DynMat)) (b0 : BandwidthWeight)
    (lower upper : Option ℝ) (coords : DynMat) (s θ t₀ t₁ : ℝ) (hs : 0 < s) (ha : b0.mAdaptive = true ∨ s = 1) (x : Matrix (Fin n) (Fin k) ℝ)
    (y : Fin n → ℝ) (sS sC : Bool) :
    gwrAutoRun c sched ex ⟨false, par'⟩ b0 lower upper (movedPoints s θ t₀ t₁ coords) x y sS sC =
      gwrAutoRun c sched ex ⟨false, par⟩ b0 lower upper coords x y sS sC := by
  unfold gwrAutoRun
  refine bind_moved s θ t₀ t₁ par par' coords ?_
  rw [searchEx_moved hs θ t₀ t₁ coords c sched x y ha]
  cases hr : gwrSearchEx c sched ⟨false, some (coords, coords)⟩ b0 lower upper x y with
  | ok r =>
    simp only [Res.bind]
    cases hb : r.out with
    | ok b =>
      have hab : b.mAdaptive = true ∨ s = 1 := by
        unfold gwrSearchEx at hr
        obtain ⟨u, -, hr⟩ := Res.bind_eq_ok'.1 hr
        rw [← Res.ok.inj hr] at hb
        exact out_adaptive ha hb
      simp only [gwrFinish, weightRows_moved hs θ t₀ t₁ coords coords hab n n]
    | _ => rfl
  | _ => rfl

/-! ### Multiscale regression -/

theorem searchIn_moved (θ t₀ t₁ : ℝ) (coords : DynMat) (u : MgwrSetup n k) (x : Matrix (Fin n) (Fin k) ℝ) (range : Fin k → ℝ × ℝ) (i : Fin k) (y : Fin n → ℝ)
    (b : BandwidthWeight) (sched : ℕ → Exec n) (C : DynMat) :
    ({ u with coords := C } : MgwrSetup n k).searchIn x (fun _ => ⟨false, some (movedPoints 1 θ t₀ t₁ coords, movedPoints 1 θ t₀ t₁ coords)⟩) range i y b sched =
      u.searchIn x (fun _ => ⟨false, some (coords, coords)⟩) range i y b sched := by
  unfold MgwrSetup.searchIn varCriterionIn
  simp only [fun w e => criterionEx_moved one_pos θ t₀ t₁ coords (u.approach i) (colOf x i) y (b := w) (.inr rfl) e]

theorem bfVarIn_moved (θ t₀ t₁ : ℝ) (coords : DynMat) (u : MgwrSetup n k) (C : DynMat) (hat : Bool) (md : MgwrModes n k) (x : Matrix (Fin n) (Fin k) ℝ)
    (range : Fin k → ℝ × ℝ) (it : ℕ) (i : Fin k) (st : BfState n k) :
    bfVarIn { u with coords := C } hat md x (fun _ => ⟨false, some (movedPoints 1 θ t₀ t₁ coords, movedPoints 1 θ t₀ t₁ coords)⟩) range it i st =
      bfVarIn u hat md x (fun _ => ⟨false, some (coords, coords)⟩) range it i st := by
  unfold bfVarIn fitVarIn
  simp only [searchIn_moved, fun w => weightRows_moved one_pos θ t₀ t₁ coords coords (b := w) (.inr rfl) n n]
  rfl

theorem bfVarsIn_moved (θ t₀ t₁ : ℝ) (coords : DynMat) (u : MgwrSetup n k) (C : DynMat) (hat : Bool) (md : MgwrModes n k) (x : Matrix (Fin n) (Fin k) ℝ)
    (range : Fin k → ℝ × ℝ) (it : ℕ) : ∀ (l : List (Fin k)) (st : BfState n k),
    bfVarsIn { u with coords := C } hat md x (fun _ => ⟨false, some (movedPoints 1 θ t₀ t₁ coords, movedPoints 1 θ t₀ t₁ coords)⟩) range it l st =
      bfVarsIn u hat md x (fun _ => ⟨false, some (coords, coords)⟩) range it l st
  | [], _ => rfl
  | i :: is, st => by
    simp only [bfVarsIn, bfVarIn_moved]
    congr 1
    funext s'
    exact bfVarsIn_moved θ t₀ t₁ coords u C hat md x range it is s'

theorem bfLoopIn_moved (θ t₀ t₁ : ℝ) (coords : DynMat) (u : MgwrSetup n k) (C : DynMat) (hat : Bool) (md : MgwrModes n k) (x : Matrix (Fin n) (Fin k) ℝ)
    (range : Fin k → ℝ × ℝ) : ∀ (m it : ℕ) (go : Bool) (r0 : ℝ) (st : BfState n k),
    bfLoopIn { u with coords := C } hat md x (fun _ => ⟨false, some (movedPoints 1 θ t₀ t₁ coords, movedPoints 1 θ t₀ t₁ coords)⟩) range m it go r0 st =
      bfLoopIn u hat md x (fun _ => ⟨false, some (coords, coords)⟩) range m it go r0 st
  | 0, _, _, _, _ => rfl
  | m + 1, it, go, r0, st => by
    simp only [bfLoopIn, bfVarsIn_moved]
    split
    · rfl
    · congr 1
      funext s'
      exact bfLoopIn_moved θ t₀ t₁ coords u C hat md x range m _ _ _ s'

/-- **C147 (multiscale regression).** Turning and shifting the map changes nothing in the outcome of a multiscale regression: the initial model with its
bandwidth, the bandwidths of all variables, and everything reported, in every mode. -/
theorem C147_multiscale (u : MgwrSetup n k) (h0 : u.dist0.mGeographic = false) (hd : ∀ i, (u.dist i).mGeographic = false) (hat : Bool)
    (md : MgwrModes n k) (θ t₀ t₁ : ℝ) :
    mgwrRunIn { u with coords := movedPoints 1 θ t₀ t₁ u.coords } hat md = mgwrRunIn u hat md := by
  have hb : ∀ (d : CRSDistance), d.mGeographic = false → d = ⟨false, d.mParameter⟩ := fun d h => by cases d; cases h; rfl
  unfold mgwrRunIn
  dsimp only
  by_cases hk : 0 < k
  swap
  · rw [dif_neg hk]
    rfl
  congr 1
  funext c
  have hg := C147_basic_selection_any_mode c md.search0 md.fit0 u.dist0.mParameter u.dist0.mParameter u.bw0 u.lower u.upper u.coords 1 θ t₀ t₁ one_pos
    (.inr rfl) (centrePredictors u.hasIntercept u.centred u.x) u.y (hat || decide (n < 8192)) hat
  rw [← hb u.dist0 h0] at hg
  rw [hg]
  congr 1
  funext rg
  by_cases hc : u.coords.nCols = 2
  · have hc' : (movedPoints 1 θ t₀ t₁ u.coords).nCols = 2 := hc
    have e1 : (Res.tabulate k fun i => bindLocations (u.dist i) u.coords u.coords) = .ok fun _ => ⟨false, some (u.coords, u.coords)⟩ :=
      Res.tabulate_eq_ok.2 fun i => bindLocations_eq_ok.2 ⟨hc, hc, by rw [hd i]⟩
    have e2 : (Res.tabulate k fun i => bindLocations (u.dist i) (movedPoints 1 θ t₀ t₁ u.coords) (movedPoints 1 θ t₀ t₁ u.coords)) =
        .ok fun _ => ⟨false, some (movedPoints 1 θ t₀ t₁ u.coords, movedPoints 1 θ t₀ t₁ u.coords)⟩ :=
      Res.tabulate_eq_ok.2 fun i => bindLocations_eq_ok.2 ⟨hc', hc', by rw [hd i]⟩
    rw [e1, e2]
    simp only [Res.bind]
    have e3 : ∀ i, mgwrDistRange (u.init i) ⟨false, some (movedPoints 1 θ t₀ t₁ u.coords, movedPoints 1 θ t₀ t₁ u.coords)⟩ =
        mgwrDistRange (u.init i) ⟨false, some (u.coords, u.coords)⟩ := by
      intro i
      unfold mgwrDistRange
      rw [maxDistance_moved, minDistance_moved]
    simp only [e3, searchIn_moved, backfittingIn, bfLoopIn_moved]
    rfl
  · have e : ∀ (c : DynMat), c.nCols ≠ 2 → (fun i => bindLocations (u.dist i) c c) = fun _ => .throw .runtime := by
      intro c h
      funext i
      unfold bindLocations CRSDistance.makeParameter
      simp [DistParam.getMat, h]
    have hc' : (movedPoints 1 θ t₀ t₁ u.coords).nCols ≠ 2 := hc
    rw [e _ hc, e _ hc']
    cases k with
    | zero => exact absurd hk (lt_irrefl 0)
    | succ k => rfl

example := C147_basic_selection_any_mode .CV (fun _ => moreThreads 3) (moreThreads 3) none none ⟨2, true, .Bisquare⟩ none (some 3) (lineCoords 2)
  1000 1 5 (-7) (by norm_num) (.inl rfl) exX ![0, 1, 4] true true

/-- A multiscale run that succeeds, in any mode, the map turned by one radian and shifted. -/
example (md : MgwrModes 3 2) (hv : md.Valid) : ∃ o, mgwrRunIn Verif.Cases.msLine true md = .ok o ∧
    mgwrRunIn { Verif.Cases.msLine with coords := movedPoints 1 1 5 (-7) Verif.Cases.msLine.coords } true md = .ok o := by
  obtain ⟨o, h⟩ := Verif.Cases.msLine_run md hv
  exact ⟨o, h, (C147_multiscale Verif.Cases.msLine rfl (fun _ => rfl) true md 1 5 (-7)).trans h⟩

end Verif.Props

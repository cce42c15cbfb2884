import Verif.Props.MapDrawingSearch
import Verif.Props.GTWRRunGeneral

/-! # C147: turning and shifting the map does not matter for space-time regression -/

namespace Verif.Props
open Verif Verif.Model Verif.Spec Matrix Classical

variable {n k m p : ℕ}

/-- The spatial part of a space-time distance is planar. -/
def PlanarST (d : CRSSTDistance) : Prop := ∀ sp, d.mSpatial = some sp → sp.mGeographic = false

/-- The same distance object, holding the points of the turned and shifted map. -/
noncomputable def turned (θ t₀ t₁ : ℝ) (d : CRSSTDistance) : CRSSTDistance :=
  { d with mSpatial := d.mSpatial.map fun sp =>
      { sp with mParameter := sp.mParameter.map fun q => (movedPoints 1 θ t₀ t₁ q.1, movedPoints 1 θ t₀ t₁ q.2) } }

theorem distance_turned (θ t₀ t₁ : ℝ) {d : CRSSTDistance} (hp : PlanarST d) : (turned θ t₀ t₁ d).distance = d.distance := by
  funext i
  obtain ⟨sp, te, la, an, ca, pa⟩ := d
  unfold turned CRSSTDistance.distance
  cases sp with
  | none => rfl
  | some sp =>
    have hg := hp sp rfl
    obtain ⟨g, q⟩ := sp
    subst hg
    cases te with
    | none => rfl
    | some te =>
      simp only [Option.map_some, stDistance]
      cases q with
      | none => rfl
      | some q =>
        simp only [Option.map_some]
        rw [distance_moved one_pos]
        obtain ⟨q₁, q₂⟩ := q
        cases (CRSDistance.mk false (some (q₁, q₂))).distance i <;> simp [Res.bind]

theorem stWeightRows_turned (θ t₀ t₁ : ℝ) {d : CRSSTDistance} (hp : PlanarST d) (b : BandwidthWeight) (n m : ℕ) :
    stWeightRows (turned θ t₀ t₁ d) b n m = stWeightRows d b n m := by
  unfold stWeightRows stWeightVector
  rw [distance_turned θ t₀ t₁ hp]

theorem stMax_turned (θ t₀ t₁ : ℝ) {d : CRSSTDistance} (hp : PlanarST d) : (turned θ t₀ t₁ d).maxDistance = d.maxDistance := by
  unfold CRSSTDistance.maxDistance
  rw [distance_turned θ t₀ t₁ hp]
  rfl

theorem gtwrBind_turned (θ t₀ t₁ : ℝ) (d : CRSSTDistance) (coords : DynMat) (times : List ℝ) {α : Type*} {f g : CRSSTDistance → Res α}
    (hp : PlanarST d) (h : ∀ d', PlanarST d' → f (turned θ t₀ t₁ d') = g d') :
    (gtwrBind d (movedPoints 1 θ t₀ t₁ coords) times).bind f = (gtwrBind d coords times).bind g := by
  obtain ⟨sp, te, la, an, ca, pa⟩ := d
  unfold gtwrBind CRSSTDistance.makeParameter
  simp only [DistParam.getMat, DistParam.getVec]
  have hr : (movedPoints 1 θ t₀ t₁ coords).nRows = coords.nRows := rfl
  have hc : (movedPoints 1 θ t₀ t₁ coords).nCols = coords.nCols := rfl
  rw [hr]
  by_cases hlen : coords.nRows = times.length
  · simp only [hlen, and_self, if_true]
    cases sp with
    | none => rfl
    | some sp =>
      cases te with
      | none => rfl
      | some te =>
        have hg := hp sp rfl
        obtain ⟨gg, q⟩ := sp
        subst hg
        simp only [CRSDistance.makeParameter, DistParam.getMat, hc]
        by_cases h2 : coords.nCols = 2
        · simp only [h2, and_self, if_true]
          rcases te.makeParameter [.vec times, .vec times] with ⟨te', r⟩
          cases r with
          | ok _ =>
            simp only [Res.bind]
            exact h ⟨some ⟨false, some (coords, coords)⟩, some te', la, an, ca, some times.length⟩ fun sp e => by cases e; rfl
          | _ => rfl
        · simp only [h2, and_self, if_false]
          rfl
  · simp only [hlen, false_and, and_false, if_false]
    rfl

theorem lambda_turned (θ t₀ t₁ : ℝ) (autoLambda : Bool) {d : CRSSTDistance} (hp : PlanarST d) (b : BandwidthWeight) (coords : DynMat) (times : List ℝ)
    (x : Matrix (Fin n) (Fin k) ℝ) (y : Fin n → ℝ) :
    gtwrLambda autoLambda d b (movedPoints 1 θ t₀ t₁ coords) times x y = gtwrLambda autoLambda d b coords times x y := by
  unfold gtwrLambda
  have : ∀ l, rsquareByLambda d b (movedPoints 1 θ t₀ t₁ coords) times x y (fun _ => false) l = rsquareByLambda d b coords times x y (fun _ => false) l := by
    intro l
    unfold rsquareByLambda CRSSTDistance.setLambda
    by_cases hl : l ≥ 0 ∧ l ≤ 1
    · simp only [hl, and_self, if_true]
      refine gtwrBind_turned θ t₀ t₁ _ _ _ hp fun d' hd' => ?_
      rw [stWeightRows_turned θ t₀ t₁ hd']
    · simp only [hl, if_false]
  simp only [this]

theorem finish_turned (θ t₀ t₁ : ℝ) (autoLambda : Bool) (ex : Exec n) {d : CRSSTDistance} (hp : PlanarST d) (b : BandwidthWeight) (coords : DynMat)
    (times : List ℝ) (x : Matrix (Fin n) (Fin k) ℝ) (y : Fin n → ℝ) (sS : Bool) :
    gtwrFinishLambda autoLambda ex d b (movedPoints 1 θ t₀ t₁ coords) times x y sS = gtwrFinishLambda autoLambda ex d b coords times x y sS := by
  unfold gtwrFinishLambda
  rw [lambda_turned θ t₀ t₁ autoLambda hp]
  congr 1
  funext l
  have key : ∀ d1, PlanarST d1 → ((gtwrBind d1 (movedPoints 1 θ t₀ t₁ coords) times).bind fun d2 => (gtwrFinish ex d2 b x y sS).bind fun g => Res.ok (l, g)) =
      (gtwrBind d1 coords times).bind fun d2 => (gtwrFinish ex d2 b x y sS).bind fun g => Res.ok (l, g) := by
    intro d1 h1
    refine gtwrBind_turned θ t₀ t₁ _ _ _ h1 fun d' hd' => ?_
    unfold gtwrFinish
    rw [stWeightRows_turned θ t₀ t₁ hd']
  cases autoLambda with
  | false => simpa using key d hp
  | true =>
    simp only [if_true]
    unfold CRSSTDistance.setLambda
    by_cases hl : l ≥ 0 ∧ l ≤ 1
    · simp only [hl, and_self, if_true]
      exact key { d with mLambda := l } hp
    · simp only [hl, if_false]

/-- **C147 (space-time regression).** Turning and shifting the map changes nothing in the outcome of a space-time regression: the selected bandwidth,
adaptive or not, the selected λ and everything reported, in every mode. -/
theorem C147_spacetime (crit : Option Crit) (autoLambda : Bool) (ex : Exec n) (d : CRSSTDistance) (hp : ∀ sp, d.mSpatial = some sp → sp.mGeographic = false)
    (b0 : BandwidthWeight) (coords : DynMat) (times : List ℝ) (θ t₀ t₁ : ℝ) (x : Matrix (Fin n) (Fin k) ℝ) (y : Fin n → ℝ) (sS : Bool) :
    gtwrRunEx crit autoLambda ex d b0 (movedPoints 1 θ t₀ t₁ coords) times x y sS = gtwrRunEx crit autoLambda ex d b0 coords times x y sS := by
  unfold gtwrRunEx
  refine gtwrBind_turned θ t₀ t₁ _ _ _ hp fun d' hd' => ?_
  simp only [finish_turned θ t₀ t₁ autoLambda ex hp]
  cases crit with
  | none => rfl
  | some c =>
    have hC : ∀ b, gtwrCriterion c (turned θ t₀ t₁ d') x y b = gtwrCriterion c d' x y b := by
      intro b
      unfold gtwrCriterion
      rw [stWeightRows_turned θ t₀ t₁ hd']
    have : gtwrSelectBandwidth c (turned θ t₀ t₁ d') b0 x y = gtwrSelectBandwidth c d' b0 x y := by
      unfold gtwrSelectBandwidth gtwrBounds gtwrScore
      simp only [hC, stMax_turned θ t₀ t₁ hd']
    simp only [this]

/-- A run with both selections that succeeds, the map turned by one radian and shifted. -/
example (ex : Exec 3) (hex : ex.Valid) : ∃ r,
    gtwrRunEx (some .CV) true ex (exST (1 / 2)) ⟨1, false, .Gaussian⟩ (lineCoords 1) (List.ofFn ![0, 1, 2]) exX (exX *ᵥ ![2, 3]) true = .ok r ∧
    gtwrRunEx (some .CV) true ex (exST (1 / 2)) ⟨1, false, .Gaussian⟩ (movedPoints 1 1 5 (-7) (lineCoords 1)) (List.ofFn ![0, 1, 2]) exX (exX *ᵥ ![2, 3]) true = .ok r := by
  obtain ⟨l, g, h, -⟩ := ex_gtwrRun ex hex true
  exact ⟨_, h, (C147_spacetime _ _ _ _ (fun sp e => by cases e; rfl) _ _ _ _ _ _ _ _ _).trans h⟩

end Verif.Props

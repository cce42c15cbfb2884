import Verif.Props.GWRBasicRun
import Verif.Props.GWRRidgeRun
import Verif.Props.SummaryRun

/-!
# C131: an adaptive bandwidth of less than one neighbour

`isValid` accepts any positive bandwidth. In serial mode a fit, a prediction and a run of local statistics report such an adaptive bandwidth by an
exception. In multithreaded mode the exception leaves the parallel loop, which ends the program.
-/

namespace Verif.Props
open Verif Verif.Model Verif.Spec Matrix Classical

variable {n k m : ℕ}

theorem tabulate_all_throw {α : Type*} {f : Fin n → Res α} {e : Err} (hn : 0 < n) (h : ∀ i, f i = .throw e) : Res.tabulate n f = .throw e := by
  cases n with
  | zero => omega
  | succ n => simp only [Res.tabulate, h, Res.bind]

theorem radius_below_one {bw : ℝ} (h0 : 0 < bw) (h1 : bw < 1) (hn : 0 < n) (dist : Fin n → ℝ) : adaptiveRadius bw dist = .throw .bounds := by
  have hf : ⌊bw⌋ = 0 := Int.floor_eq_zero_iff.2 ⟨h0.le, h1⟩
  have hn1 : (1 : ℝ) ≤ n := by exact_mod_cast hn
  unfold adaptiveRadius
  rw [if_pos (Or.inl ⟨hn.ne', (div_lt_one (by linarith)).2 (by linarith)⟩)]
  simp only [hf]
  rfl

theorem weightRows_below_one {geo : Bool} {at' obs : DynMat} {b : BandwidthWeight} {dist : Fin m → Fin n → ℝ} (hm : at'.nRows = m) (hn : obs.nRows = n)
    (hd : IsMapDistance geo at' obs dist) (ha : b.mAdaptive = true) (h0 : 0 < b.mBandwidth) (h1 : b.mBandwidth < 1) (pm : 0 < m) (pn : 0 < n) :
    weightRows ⟨geo, some (at', obs)⟩ b n m = .throw .bounds := by
  rw [mapDistance_calc] at hd
  refine tabulate_all_throw pm fun i => ?_
  subst hn
  have hr : crsDistRow geo at' obs i = .ok (List.ofFn (dist i)) := by
    unfold crsDistRow
    refine mapRes_eq_ok.2 (List.forall₂_iff_get.2 ⟨by simp, fun j hj _ => ?_⟩)
    have hj' : j < obs.nRows := by simpa using hj
    simpa using hd i ⟨j, hj'⟩
  have hv : rowToVec (List.ofFn (dist i)) obs.nRows = .ok (dist i) := by
    unfold rowToVec
    rw [dif_pos (List.length_ofFn)]
    simp
  unfold weightVector CRSDistance.distance
  simp only
  rw [if_pos (by rw [hm]; exact i.isLt), hr]
  simp only [Res.bind, hv]
  unfold BandwidthWeight.weight
  rw [if_pos ha, radius_below_one h0 h1 pn]
  rfl

/-- **C131: in serial mode the bandwidth is reported.** For every number of observations, all coordinates and data: a fit, a prediction at any number
of places, local averages, local correlations and a local ridge fit with an adaptive bandwidth between 0 and 1 throw. -/
theorem C131_serial_reports (geo : Bool) (p : Option (DynMat × DynMat)) (b : BandwidthWeight) (ha : b.mAdaptive = true) (h0 : 0 < b.mBandwidth)
    (h1 : b.mBandwidth < 1) (hn : 0 < n) (coords : DynMat) (hc : FitsData coords n) (dist : Fin n → Fin n → ℝ)
    (hd : IsMapDistance geo coords coords dist) (x : Matrix (Fin n) (Fin k) ℝ) (y : Fin n → ℝ) (sS sC : Bool) :
    gwrRun .serial ⟨geo, p⟩ b coords x y sS sC = .throw .bounds ∧
    (∀ (m : ℕ) (locations : DynMat) (dist' : Fin m → Fin n → ℝ), 0 < m → FitsData locations m → IsMapDistance geo locations coords dist' →
      gwrPredictRun (m := m) .serial ⟨geo, p⟩ b locations coords x y = .throw .bounds) ∧
    (∀ ord quantile, gwssAverageRun ord ⟨geo, p⟩ b coords x quantile .serial = .throw .bounds) ∧
    (2 ≤ k → ∀ ord firstOnly, gwssCorrelationRun ord ⟨geo, p⟩ b coords x firstOnly .serial = .throw .bounds) ∧
    (∀ sv cfg, lcrRun sv cfg ⟨geo, p⟩ b coords x y = .throw .bounds) := by
  have hb : bindLocations ⟨geo, p⟩ coords coords = .ok ⟨geo, some (coords, coords)⟩ := bindLocations_eq_ok.2 ⟨hc.1, hc.1, rfl⟩
  have hw : weightRows ⟨geo, some (coords, coords)⟩ b n n = .throw .bounds := weightRows_below_one hc.2 hc.2 hd ha h0 h1 hn hn
  refine ⟨?_, fun m locations dist' hm hl hd' => ?_, fun ord quantile => ?_, fun hk ord firstOnly => ?_, fun sv cfg => ?_⟩
  · simp only [gwrRun, gwrFinish, hb, hw, summaryEscape, Res.bind]
  · have hw' := weightRows_below_one hl.2 hc.2 hd' ha h0 h1 hm hn
    have hb' : bindLocations ⟨geo, p⟩ locations coords = .ok ⟨geo, some (locations, coords)⟩ := bindLocations_eq_ok.2 ⟨hl.1, hc.1, rfl⟩
    simp only [gwrPredictRun, hb', hw', summaryEscape, Res.bind]
  · simp only [gwssAverageRun, hb, hw, summaryEscape, Res.bind]
  · simp only [gwssCorrelationRun, hb, hw, summaryEscape, Res.bind]
    rw [if_neg (by omega)]
  · simp only [lcrRun, hb, hw, Res.bind]

/-- **C131, refuted for multithreaded runs: the program ends.** Same inputs, any number of threads and any schedule. -/
theorem C131_parallel_dies (geo : Bool) (p : Option (DynMat × DynMat)) (b : BandwidthWeight) (ha : b.mAdaptive = true) (h0 : 0 < b.mBandwidth)
    (h1 : b.mBandwidth < 1) (hn : 0 < n) (coords : DynMat) (hc : FitsData coords n) (dist : Fin n → Fin n → ℝ)
    (hd : IsMapDistance geo coords coords dist) (x : Matrix (Fin n) (Fin k) ℝ) (y : Fin n → ℝ) (sS sC : Bool) {T : ℕ}
    (evs : List (OmpEv (Fin n) (Fin T))) :
    gwrRun (.omp evs) ⟨geo, p⟩ b coords x y sS sC = .ub ∧
    (∀ (m : ℕ) (locations : DynMat) (dist' : Fin m → Fin n → ℝ) (evs' : List (OmpEv (Fin m) (Fin T))), 0 < m → FitsData locations m →
      IsMapDistance geo locations coords dist' → gwrPredictRun (m := m) (.omp evs') ⟨geo, p⟩ b locations coords x y = .ub) ∧
    (∀ ord quantile, gwssAverageRun ord ⟨geo, p⟩ b coords x quantile (.omp evs) = .ub) ∧
    (2 ≤ k → ∀ ord firstOnly, gwssCorrelationRun ord ⟨geo, p⟩ b coords x firstOnly (.omp evs) = .ub) := by
  have hb : bindLocations ⟨geo, p⟩ coords coords = .ok ⟨geo, some (coords, coords)⟩ := bindLocations_eq_ok.2 ⟨hc.1, hc.1, rfl⟩
  have hw : weightRows ⟨geo, some (coords, coords)⟩ b n n = .throw .bounds := weightRows_below_one hc.2 hc.2 hd ha h0 h1 hn hn
  refine ⟨?_, fun m locations dist' evs' hm hl hd' => ?_, fun ord quantile => ?_, fun hk ord firstOnly => ?_⟩
  · simp only [gwrRun, gwrFinish, hb, hw, summaryEscape, Res.bind]
  · have hw' := weightRows_below_one hl.2 hc.2 hd' ha h0 h1 hm hn
    have hb' : bindLocations ⟨geo, p⟩ locations coords = .ok ⟨geo, some (locations, coords)⟩ := bindLocations_eq_ok.2 ⟨hl.1, hc.1, rfl⟩
    simp only [gwrPredictRun, hb', hw', summaryEscape, Res.bind]
  · simp only [gwssAverageRun, hb, hw, summaryEscape, Res.bind]
  · simp only [gwssCorrelationRun, hb, hw, summaryEscape, Res.bind]
    rw [if_neg (by omega)]

/-- **C131: validation does not reject it, a bandwidth search in serial mode never prefers it.** -/
theorem C131_accepted_never_preferred (geo : Bool) (b : BandwidthWeight) (ha : b.mAdaptive = true) (h0 : 0 < b.mBandwidth)
    (h1 : b.mBandwidth < 1) (hn : 0 < n) (coords : DynMat) (hc : FitsData coords n) (dist : Fin n → Fin n → ℝ)
    (hd : IsMapDistance geo coords coords dist) (x : Matrix (Fin n) (Fin k) ℝ) (y : Fin n → ℝ) (hk : 0 < k) (c : Crit) :
    gwrBasicValid { coordRows := n, coordCols := 2, xRows := n, xCols := k, yRows := n, weight := some b, hasDistance := true } = .ok true ∧
    gwrCriterionEx c ⟨geo, some (coords, coords)⟩ x y b .serial = dblMax := by
  constructor
  · simp [gwrBasicValid, gwrBaseValid, spatialValid, h0, hk, hn.ne', if_neg (not_le.2 h0)]
  · simp only [gwrCriterionEx, gwrCriterion, weightRows_below_one hc.2 hc.2 hd ha h0 h1 hn hn]

/-- The three points of the example with half a neighbour. -/
example := C131_serial_reports (n := 3) false none ⟨1 / 2, true, .Bisquare⟩ rfl (by norm_num) (by norm_num) (by norm_num) (lineCoords 1) ⟨rfl, rfl⟩ _
  (line_mapDistance 1) exX ![1, 3, 2] true true
example := C131_parallel_dies (n := 3) false none ⟨1 / 2, true, .Bisquare⟩ rfl (by norm_num) (by norm_num) (by norm_num) (lineCoords 1) ⟨rfl, rfl⟩ _
  (line_mapDistance 1) exX ![1, 3, 2] true true (T := 2) (seqEvents (fun _ => 0) (List.finRange 3))
example := C131_accepted_never_preferred (n := 3) false ⟨1 / 2, true, .Bisquare⟩ rfl (by norm_num) (by norm_num) (by norm_num) (lineCoords 1) ⟨rfl, rfl⟩ _
  (line_mapDistance 1) exX ![1, 3, 2] (by norm_num) .CV

end Verif.Props

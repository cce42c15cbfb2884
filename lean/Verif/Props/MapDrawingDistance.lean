import Verif.Props.MapDrawingSearch
import Verif.Props.RobustRunGeneral

/-! # C147: selecting a distance on an enlarged map -/

namespace Verif.Props
open Verif Verif.Model Verif.Spec Matrix Classical

variable {n k : ℕ}

/-- Two states of a search for a distance, the second on a map enlarged by `s`. -/
structure ScaledGS (s : ℝ) (t t' : GS) : Prop where
  xL : t'.xL = s * t.xL
  xU : t'.xU = s * t.xU
  d : t'.d = s * t.d
  x1 : t'.x1 = s * t.x1
  x2 : t'.x2 = s * t.x2
  f1 : t'.f1 = t.f1
  f2 : t'.f2 = t.f2
  s1 : t'.s1 = t.s1
  s2 : t'.s2 = t.s2
  iter : t'.iter = t.iter

theorem ScaledGS.step {s : ℝ} {t t' : GS} {b : BandwidthWeight} (hb : b.mAdaptive = false) {F F' : BandwidthWeight → ℝ}
    (hF : ∀ z, F' { b with mBandwidth := s * z } = F { b with mBandwidth := z }) (h : ScaledGS s t t') :
    ScaledGS s (goldenStep b (fun _ w => (true, F w)) t) (goldenStep b (fun _ w => (true, F' w)) t') := by
  unfold goldenStep
  simp only [hb] at hF
  simp only [hb, Bool.false_eq_true, if_false, h.f1, h.f2]
  have e1 : t'.x2 + goldenR * t'.d = s * (t.x2 + goldenR * t.d) := by rw [h.x2, h.d]; ring
  have e2 : t'.x1 - goldenR * t'.d = s * (t.x1 - goldenR * t.d) := by rw [h.x1, h.d]; ring
  have ed : goldenR * t'.d = s * (goldenR * t.d) := by rw [h.d]; ring
  split
  · exact ⟨h.x2, h.xU, ed, e1, h.x1, by simp only [e1, hF], rfl, rfl, h.s2, by simp only [h.iter]⟩
  · exact ⟨h.xL, h.x1, ed, h.x2, e2, rfl, by simp only [e2, hF], h.s1, rfl, by simp only [h.iter]⟩

theorem ScaledGS.cond {s : ℝ} (hs : 1 ≤ s) {t t' : GS} (h : ScaledGS s t t') (hc : goldenCond t) : goldenCond t' := by
  obtain ⟨c1, c2, c3, c4, c5⟩ := hc
  refine ⟨by rw [h.s1, c1], by rw [h.s2, c2], ?_, by rw [h.f1, h.f2]; exact c4, by rw [h.iter]; exact c5⟩
  rw [h.d, abs_mul, abs_of_pos (by linarith)]
  nlinarith [abs_nonneg t.d]

theorem ScaledGS.loop {s : ℝ} (hs : 1 ≤ s) {t t' : GS} {b : BandwidthWeight} (hb : b.mAdaptive = false) {F F' : BandwidthWeight → ℝ}
    (hF : ∀ z, F' { b with mBandwidth := s * z } = F { b with mBandwidth := z }) (h : ScaledGS s t t') {P : GS → Prop}
    (hP : ∀ t, P t → P (goldenStep b (fun _ w => (true, F' w)) t)) (h0 : P t') :
    ∃ m, P m ∧ ScaledGS s (goldenLoop b (fun _ w => (true, F w)) t) m ∧
      goldenLoop b (fun _ w => (true, F' w)) t' = goldenLoop b (fun _ w => (true, F' w)) m := by
  fun_induction goldenLoop b (fun _ w => (true, F w)) t generalizing t' with
  | case1 t hc ih =>
    obtain ⟨m, h1, h2, h3⟩ := ih (h.step hb hF) (hP _ h0)
    refine ⟨m, h1, h2, ?_⟩
    rw [goldenLoop, if_pos (h.cond hs hc)]
    exact h3
  | case2 t hc => exact ⟨t', h0, h, rfl⟩

/-- What a search keeps from a state `m` on: the bracket shrinks, the better value does not get worse. -/
structure AfterGS (l u : ℝ) (m t : GS) : Prop where
  geom : GSGeom l u t
  lo : m.xL ≤ t.xL
  hi : t.xU ≤ m.xU
  best : min t.f1 t.f2 ≤ min m.f1 m.f2

theorem AfterGS.step {l u : ℝ} (hlu : l ≤ u) {m t : GS} {b : BandwidthWeight} (hb : b.mAdaptive = false) {o : Oracle} (h : AfterGS l u m t) :
    AfterGS l u m (goldenStep b o t) := by
  obtain ⟨g0, g1, g2, g3⟩ := h.geom.facts hlu
  refine ⟨h.geom.step hb hlu, ?_, ?_, ?_⟩
  · unfold goldenStep; dsimp only; split
    · exact h.lo.trans g1
    · exact h.lo
  · unfold goldenStep; dsimp only; split
    · exact h.hi
    · exact g3.trans h.hi
  · refine le_trans ?_ h.best
    unfold goldenStep; dsimp only; split
    · rename_i hf
      rw [min_eq_left hf.le]
      exact min_le_right _ _
    · rename_i hf
      rw [min_eq_right (not_lt.1 hf)]
      exact min_le_left _ _

/-- The values a search holds are the criterion at its two points. -/
def Holds (b : BandwidthWeight) (F : BandwidthWeight → ℝ) (t : GS) : Prop :=
  t.f1 = F { b with mBandwidth := t.x1 } ∧ t.f2 = F { b with mBandwidth := t.x2 } ∧ t.s1 = true ∧ t.s2 = true

theorem Holds.step {b : BandwidthWeight} {F : BandwidthWeight → ℝ} {t : GS} (h : Holds b F t) :
    Holds b F (goldenStep b (fun _ w => (true, F w)) t) := by
  obtain ⟨h1, h2, h3, h4⟩ := h
  unfold goldenStep; dsimp only; split
  · exact ⟨rfl, h1, rfl, h4⟩
  · exact ⟨h2, rfl, h3, rfl⟩

theorem Holds.xopt {b : BandwidthWeight} {F : BandwidthWeight → ℝ} {t : GS} (h : Holds b F t) : F { b with mBandwidth := t.xopt } = min t.f1 t.f2 := by
  obtain ⟨h1, h2, -⟩ := h
  unfold GS.xopt
  split
  · rename_i hf; rw [min_eq_left hf.le, h1]
  · rename_i hf; rw [min_eq_right (not_lt.1 hf), h2]

theorem GSGeom.xopt_mem {l u : ℝ} (hlu : l ≤ u) {t : GS} (h : GSGeom l u t) : t.xL ≤ t.xopt ∧ t.xopt ≤ t.xU := by
  obtain ⟨g0, g1, g2, g3⟩ := h.facts hlu
  unfold GS.xopt
  split <;> constructor <;> linarith

/-- A search for a distance on an enlarged map, against the search on the original one. -/
theorem optimize_scaled {s : ℝ} (hs : 1 ≤ s) {b : BandwidthWeight} (hb : b.mAdaptive = false) {F F' : BandwidthWeight → ℝ}
    (hF : ∀ z, F' { b with mBandwidth := s * z } = F { b with mBandwidth := z }) {l u : ℝ} (hlu : l ≤ u) (q q' : List (ℝ × ℝ)) :
    ((optimize b l u (fun _ w => (true, F w)) q).out = .throw .runtime ∧ (optimize b (s * l) (s * u) (fun _ w => (true, F' w)) q').out = .throw .runtime) ∨
    ∃ z z', (optimize b l u (fun _ w => (true, F w)) q).out = .ok { b with mBandwidth := z } ∧
      (optimize b (s * l) (s * u) (fun _ w => (true, F' w)) q').out = .ok { b with mBandwidth := z' } ∧
      |z' / s - z| ≤ 0.0002 ∧ F' { b with mBandwidth := z' } ≤ F { b with mBandwidth := z } := by
  have hs0 : 0 < s := by linarith
  have hlu' : s * l ≤ s * u := by nlinarith
  have e1 : s * l + goldenR * (s * u - s * l) = s * (l + goldenR * (u - l)) := by ring
  have e2 : s * u - goldenR * (s * u - s * l) = s * (u - goldenR * (u - l)) := by ring
  have h0 : ScaledGS s (goldenInit b l u (fun _ w => (true, F w)) q) (goldenInit b (s * l) (s * u) (fun _ w => (true, F' w)) q') := by
    unfold goldenInit
    have hF := hF
    simp only [hb] at hF
    simp only [hb, Bool.false_eq_true, if_false]
    exact ⟨rfl, rfl, by ring, e1, e2, by simp only [e1, hF], by simp only [e2, hF], rfl, rfl, rfl⟩
  have g0 := GSGeom.init hb hlu (fun _ w => (true, F w)) q
  have g0' := GSGeom.init hb hlu' (fun _ w => (true, F' w)) q'
  have k0 : Holds b F (goldenInit b l u (fun _ w => (true, F w)) q) := ⟨rfl, rfl, rfl, rfl⟩
  have k0' : Holds b F' (goldenInit b (s * l) (s * u) (fun _ w => (true, F' w)) q') := ⟨rfl, rfl, rfl, rfl⟩
  unfold optimize
  dsimp only
  generalize goldenInit b l u (fun _ w => (true, F w)) q = t at *
  generalize goldenInit b (s * l) (s * u) (fun _ w => (true, F' w)) q' = t' at *
  have n1 : ¬ ¬ (t.s1 = true ∧ t.s2 = true) := not_not.2 k0.2.2
  have n1' : ¬ ¬ (t'.s1 = true ∧ t'.s2 = true) := not_not.2 k0'.2.2
  simp only [if_neg n1, if_neg n1']
  by_cases hm : t.f1 = dblMax ∧ t.f2 = dblMax
  · left
    have hm' : t'.f1 = dblMax ∧ t'.f2 = dblMax := by rw [h0.f1, h0.f2]; exact hm
    simp only [if_pos hm, if_pos hm', and_self]
  right
  have hm' : ¬ (t'.f1 = dblMax ∧ t'.f2 = dblMax) := by rw [h0.f1, h0.f2]; exact hm
  simp only [if_neg hm, if_neg hm']
  have h1 : ScaledGS s { t with crit := record t.x2 t.f2 (record t.x1 t.f1 t.crit) }
      { t' with crit := record t'.x2 t'.f2 (record t'.x1 t'.f1 t'.crit) } := ⟨h0.xL, h0.xU, h0.d, h0.x1, h0.x2, h0.f1, h0.f2, h0.s1, h0.s2, h0.iter⟩
  have g1 : GSGeom l u { t with crit := record t.x2 t.f2 (record t.x1 t.f1 t.crit) } := ⟨g0.e1, g0.e2, g0.ed, g0.width, g0.lo, g0.hi, g0.inb⟩
  have g1' : GSGeom (s * l) (s * u) { t' with crit := record t'.x2 t'.f2 (record t'.x1 t'.f1 t'.crit) } :=
    ⟨g0'.e1, g0'.e2, g0'.ed, g0'.width, g0'.lo, g0'.hi, g0'.inb⟩
  have k1 : Holds b F { t with crit := record t.x2 t.f2 (record t.x1 t.f1 t.crit) } := k0
  have k1' : Holds b F' { t' with crit := record t'.x2 t'.f2 (record t'.x1 t'.f1 t'.crit) } := k0'
  generalize ({ t with crit := record t.x2 t.f2 (record t.x1 t.f1 t.crit) } : GS) = r at *
  generalize ({ t' with crit := record t'.x2 t'.f2 (record t'.x1 t'.f1 t'.crit) } : GS) = r' at *
  obtain ⟨m, ⟨gm, km⟩, hm1, hm2⟩ := h1.loop hs hb hF (P := fun t => GSGeom (s * l) (s * u) t ∧ Holds b F' t)
    (fun t ht => ⟨ht.1.step hb hlu', ht.2.step⟩) ⟨g1', k1'⟩
  obtain ⟨⟨gl, kl⟩, hstop⟩ := goldenLoop_induct (bw := b) (o := fun _ w => (true, F w)) (P := fun t => GSGeom l u t ∧ Holds b F t)
    (fun t ht _ => ⟨ht.1.step hb hlu, ht.2.step⟩) ⟨g1, k1⟩
  obtain ⟨⟨am, kl'⟩, -⟩ := goldenLoop_induct (bw := b) (o := fun _ w => (true, F' w)) (P := fun t => AfterGS (s * l) (s * u) m t ∧ Holds b F' t)
    (fun t ht _ => ⟨ht.1.step hlu' hb, ht.2.step⟩) (s := m) ⟨⟨gm, le_rfl, le_rfl, le_rfl⟩, km⟩
  have hends : goldenCond m ∨ goldenLoop b (fun _ w => (true, F' w)) m = m := by
    by_cases hc : goldenCond m
    · exact .inl hc
    · right
      rw [goldenLoop, if_neg hc]
  rw [hm2]
  generalize goldenLoop b (fun _ w => (true, F w)) r = S at *
  generalize goldenLoop b (fun _ w => (true, F' w)) m = S' at *
  rw [if_pos ⟨kl.2.2.1, kl.2.2.2⟩, if_pos ⟨kl'.2.2.1, kl'.2.2.2⟩]
  refine ⟨S.xopt, S'.xopt, rfl, rfl, ?_, ?_⟩
  · rcases hends with hc | rfl
    · have hd : |S.d| ≤ 1e-4 := by
        by_contra hd
        obtain ⟨c1, c2, c3, c4, c5⟩ := hc
        rw [hm1.f1, hm1.f2] at c4
        rw [hm1.iter] at c5
        exact hstop ⟨kl.2.2.1, kl.2.2.2, not_le.1 hd, c4, c5⟩
      obtain ⟨r1, r2⟩ := goldenR_bounds
      have hw : S.xU - S.xL ≤ 0.0002 := by
        have := (le_abs_self _).trans hd
        rw [gl.ed] at this
        nlinarith
      obtain ⟨a1, a2⟩ := GSGeom.xopt_mem hlu gl
      obtain ⟨b1, b2⟩ := GSGeom.xopt_mem hlu' am.geom
      have c1 := am.lo.trans b1
      have c2 := b2.trans am.hi
      rw [hm1.xL] at c1
      rw [hm1.xU] at c2
      have c1' : S.xL ≤ S'.xopt / s := by rw [le_div_iff₀ hs0]; linarith
      have c2' : S'.xopt / s ≤ S.xU := by rw [div_le_iff₀ hs0]; linarith
      rw [abs_le]
      constructor <;> linarith
    · have : S'.xopt = s * S.xopt := by
        unfold GS.xopt
        rw [hm1.f1, hm1.f2, hm1.x1, hm1.x2]
        split <;> rfl
      rw [this, mul_div_cancel_left₀ _ hs0.ne', sub_self, abs_zero]
      norm_num
  · rw [kl.xopt, kl'.xopt]
    refine am.best.trans ?_
    rw [hm1.f1, hm1.f2]

theorem listMax_scale {s : ℝ} (hs : 0 < s) (l : List ℝ) : listMax (l.map (s * ·)) = (listMax l).bind fun v => .ok (s * v) := by
  cases l with
  | nil => rfl
  | cons a l =>
    simp only [List.map_cons, listMax, Res.bind]
    rw [foldl_max_scale hs]

theorem maxLoop_scale {s : ℝ} (hs : 0 < s) {row row' : ℕ → Res (List ℝ)} (h : ∀ i, row' i = (row i).bind fun l => .ok (l.map (s * ·))) (is : List ℕ) (m : ℝ) :
    maxLoop row' is (s * m) = (maxLoop row is m).bind fun v => .ok (s * v) := by
  induction is generalizing m with
  | nil => rfl
  | cons i is ih =>
    simp only [maxLoop, h]
    cases row i with
    | ok r =>
      simp only [Res.bind]
      rw [listMax_scale hs]
      cases listMax r with
      | ok d =>
        simp only [Res.bind]
        have : (if s * d > s * m then s * d else s * m) = s * (if d > m then d else m) := by
          simp only [gt_iff_lt, mul_lt_mul_iff_right₀ hs]
          split <;> rfl
        rw [this]
        exact ih _
      | _ => rfl
    | _ => rfl

theorem maxLoop_ge {row : ℕ → Res (List ℝ)} {is : List ℕ} {m v : ℝ} (h : maxLoop row is m = .ok v) : m ≤ v := by
  induction is generalizing m with
  | nil => exact (Res.ok.inj h).le
  | cons i is ih =>
    simp only [maxLoop] at h
    obtain ⟨r, -, h⟩ := Res.bind_eq_ok'.1 h
    obtain ⟨d, -, h⟩ := Res.bind_eq_ok'.1 h
    refine le_trans ?_ (ih h)
    split <;> linarith

theorem maxDistance_enlarged {s : ℝ} (hs : 0 < s) (θ t₀ t₁ : ℝ) (at₀ obs : DynMat) :
    (CRSDistance.mk false (some (movedPoints s θ t₀ t₁ at₀, movedPoints s θ t₀ t₁ obs))).maxDistance =
      (CRSDistance.mk false (some (at₀, obs))).maxDistance.bind fun v => .ok (s * v) := by
  have := maxLoop_scale hs (row_moved hs θ t₀ t₁ at₀ obs) (List.range at₀.nRows) 0
  rw [mul_zero] at this
  exact this

/-- The weights of a distance, with every outcome, on the enlarged map. -/
theorem weightRows_enlarged {s : ℝ} (hs : 0 < s) (θ t₀ t₁ : ℝ) (at₀ obs : DynMat) {b : BandwidthWeight} (ha : b.mAdaptive = false) (z : ℝ) (n m : ℕ) :
    weightRows ⟨false, some (movedPoints s θ t₀ t₁ at₀, movedPoints s θ t₀ t₁ obs)⟩ { b with mBandwidth := s * z } n m =
      weightRows ⟨false, some (at₀, obs)⟩ { b with mBandwidth := z } n m := by
  unfold weightRows weightVector
  congr 1
  funext i
  rw [distance_moved hs]
  cases (CRSDistance.mk false (some (at₀, obs))).distance i.val with
  | ok l =>
    simp only [Res.bind]
    unfold rowToVec
    by_cases hl : l.length = n
    · rw [dif_pos hl, dif_pos (by simpa using hl)]
      simp only [Res.bind, List.getElem_map]
      unfold BandwidthWeight.weight
      simp only [ha, Bool.false_eq_true, if_false]
      exact kernelVec_scale hs _ _ _
    · rw [dif_neg hl, dif_neg (by simpa using hl)]
  | _ => rfl

/-- **C147 (selected distance, scale).** A distance is selected automatically on a planar map and on an enlarged, turned and shifted drawing of it.
Either both searches fail, in the same way, or both select: expressed in units of the first map, the two selected distances differ by at most 0.0002,
and the one selected on the larger map has a criterion at least as good. -/
theorem C147_selected_distance (c : Crit) (b0 : BandwidthWeight) (hb : b0.mAdaptive = false) (coords : DynMat) (s θ t₀ t₁ : ℝ) (hs : 1 ≤ s)
    (x : Matrix (Fin n) (Fin k) ℝ) (y : Fin n → ℝ) (r : SearchResult)
    (h : gwrSelectBandwidth c ⟨false, some (coords, coords)⟩ b0 none none x y = .ok r) :
    ∃ r', gwrSelectBandwidth c ⟨false, some (movedPoints s θ t₀ t₁ coords, movedPoints s θ t₀ t₁ coords)⟩ b0 none none x y = .ok r' ∧
      ((r.out = .throw .runtime ∧ r'.out = .throw .runtime) ∨
        ∃ z z', r.out = .ok { b0 with mBandwidth := z } ∧ r'.out = .ok { b0 with mBandwidth := z' } ∧ |z' / s - z| ≤ 0.0002 ∧
          gwrCriterion c ⟨false, some (movedPoints s θ t₀ t₁ coords, movedPoints s θ t₀ t₁ coords)⟩ x y { b0 with mBandwidth := z' } ≤
            gwrCriterion c ⟨false, some (coords, coords)⟩ x y { b0 with mBandwidth := z }) := by
  have hs0 : 0 < s := by linarith
  unfold gwrSelectBandwidth at h ⊢
  simp only [hb, Bool.false_eq_true, if_false, Option.getD_none] at h ⊢
  rw [maxDistance_enlarged hs0]
  cases hu : (CRSDistance.mk false (some (coords, coords))).maxDistance with
  | throw _ => rw [hu] at h; cases h
  | ub => rw [hu] at h; cases h
  | nonfinite => rw [hu] at h; cases h
  | ok u =>
    rw [hu] at h
    simp only [Res.bind] at h ⊢
    refine ⟨_, rfl, ?_⟩
    rw [← Res.ok.inj h]
    have h0 : 0 ≤ u := maxLoop_ge hu
    have := optimize_scaled hs hb (F := gwrCriterion c ⟨false, some (coords, coords)⟩ x y)
      (F' := gwrCriterion c ⟨false, some (movedPoints s θ t₀ t₁ coords, movedPoints s θ t₀ t₁ coords)⟩ x y)
      (fun z => by simp only [gwrCriterion, weightRows_enlarged hs0 θ t₀ t₁ coords coords hb z]) h0 [] []
    rw [mul_zero] at this
    simp only [hb] at this
    exact this

/-- Three points on a line and values on a plane: both searches select, on the map and on one drawn a thousand times larger, turned and shifted. -/
example : ∃ r r' : SearchResult,
    gwrSelectBandwidth .CV ⟨false, some (lineCoords 1, lineCoords 1)⟩ ⟨1, false, .Gaussian⟩ none none exX (exX *ᵥ ![2, 3]) = .ok r ∧
    gwrSelectBandwidth .CV ⟨false, some (movedPoints 1000 1 5 (-7) (lineCoords 1), movedPoints 1000 1 5 (-7) (lineCoords 1))⟩ ⟨1, false, .Gaussian⟩ none none
      exX (exX *ᵥ ![2, 3]) = .ok r' ∧
    ∃ z z', r.out = .ok ⟨z, false, .Gaussian⟩ ∧ r'.out = .ok ⟨z', false, .Gaussian⟩ ∧ |z' / 1000 - z| ≤ 0.0002 := by
  obtain ⟨rr, h⟩ := ex_robustAuto
  unfold robustAutoRun at h
  obtain ⟨d', hd, h⟩ := Res.bind_eq_ok'.1 h
  obtain ⟨-, -, rfl⟩ := bindLocations_eq_ok.1 hd
  obtain ⟨r, hr, h⟩ := Res.bind_eq_ok'.1 h
  obtain ⟨b, hb, -⟩ := Res.bind_eq_ok'.1 h
  obtain ⟨r', hr', ho⟩ := C147_selected_distance .CV ⟨1, false, .Gaussian⟩ rfl (lineCoords 1) 1000 1 5 (-7) (by norm_num) exX (exX *ᵥ ![2, 3]) r hr
  rcases ho with ⟨ho, -⟩ | ⟨z, z', h1, h2, h3, -⟩
  · rw [ho] at hb; cases hb
  · exact ⟨r, r', hr, hr', z, z', h1, h2, h3⟩

end Verif.Props

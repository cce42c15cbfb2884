import Verif.Model.BandwidthSelector
import Mathlib.Tactic.Linarith
import Mathlib.Tactic.LinearCombination
import Mathlib.Tactic.NormNum
import Mathlib.Tactic.Positivity
import Mathlib.Tactic.Ring

namespace Verif.Model
open Verif Classical

theorem goldenR_sq : goldenR ^ 2 = 1 - goldenR := by
  have : √5 ^ 2 = (5 : ℝ) := Real.sq_sqrt (by norm_num)
  unfold goldenR; linarith [this]

theorem goldenR_bounds : 0.618 < goldenR ∧ goldenR < 0.6181 := by
  have h1 : (2.236 : ℝ) < √5 := Real.lt_sqrt_of_sq_lt (by norm_num)
  have h2 : √5 < (2.2362 : ℝ) := by rw [Real.sqrt_lt' (by norm_num)]; norm_num
  unfold goldenR
  constructor <;> linarith

theorem goldenLoop_induct {bw : BandwidthWeight} {o : Oracle} {P : GS → Prop}
    (hstep : ∀ s, P s → goldenCond s → P (goldenStep bw o s)) {s : GS} (hs : P s) :
    P (goldenLoop bw o s) ∧ ¬ goldenCond (goldenLoop bw o s) := by
  fun_induction goldenLoop bw o s with
  | case1 s hc ih => exact ih (hstep s hs hc)
  | case2 s hc => exact ⟨hs, hc⟩

/-- The two live points carry logged values, and the smaller of their values is the smallest logged one. -/
structure GSBest (s : GS) : Prop where
  m1 : ∃ e ∈ s.evals, e.x = s.x1 ∧ e.f = s.f1 ∧ e.success = s.s1
  m2 : ∃ e ∈ s.evals, e.x = s.x2 ∧ e.f = s.f2 ∧ e.success = s.s2
  best : ∀ e ∈ s.evals, min s.f1 s.f2 ≤ e.f

theorem GSBest.init (bw : BandwidthWeight) (l u : ℝ) (o : Oracle) (m : List (ℝ × ℝ)) : GSBest (goldenInit bw l u o m) := by
  unfold goldenInit
  refine ⟨⟨_, List.mem_cons_self, rfl, rfl, rfl⟩, ⟨_, List.mem_cons_of_mem _ List.mem_cons_self, rfl, rfl, rfl⟩, ?_⟩
  intro e he
  simp only [List.mem_cons, List.not_mem_nil, or_false] at he
  rcases he with rfl | rfl <;> simp

theorem GSBest.step {bw : BandwidthWeight} {o : Oracle} {s : GS} (h : GSBest s) (hc : goldenCond s) :
    GSBest (goldenStep bw o s) := by
  obtain ⟨e1, he1, hx1, hf1, hs1⟩ := h.m1
  obtain ⟨e2, he2, hx2, hf2, hs2⟩ := h.m2
  unfold goldenStep
  dsimp only
  split
  · rename_i hlt
    refine ⟨⟨_, List.mem_append_right _ List.mem_cons_self, rfl, rfl, rfl⟩,
      ⟨e1, List.mem_append_left _ he1, hx1, hf1, by rw [hs1, hc.1, hc.2.1]⟩, ?_⟩
    intro e he
    rcases List.mem_append.1 he with he | he
    · have := h.best e he
      rw [min_eq_left hlt.le] at this
      exact (min_le_right _ _).trans this
    · rw [List.mem_singleton] at he; subst he; exact min_le_left _ _
  · rename_i hlt
    push Not at hlt
    refine ⟨⟨e2, List.mem_append_left _ he2, hx2, hf2, by rw [hs2, hc.1, hc.2.1]⟩,
      ⟨_, List.mem_append_right _ List.mem_cons_self, rfl, rfl, rfl⟩, ?_⟩
    intro e he
    rcases List.mem_append.1 he with he | he
    · have := h.best e he
      rw [min_eq_right hlt] at this
      exact (min_le_left _ _).trans this
    · rw [List.mem_singleton] at he; subst he; exact min_le_right _ _

/-- Number of calls. -/
def GSCount (s : GS) : Prop := s.evals.length = s.iter + 2 ∧ s.iter ≤ 100

theorem GSCount.init (bw : BandwidthWeight) (l u : ℝ) (o : Oracle) (m : List (ℝ × ℝ)) : GSCount (goldenInit bw l u o m) := by
  simp [GSCount, goldenInit]

theorem GSCount.step {bw : BandwidthWeight} {o : Oracle} {s : GS} (h : GSCount s) (hc : goldenCond s) :
    GSCount (goldenStep bw o s) := by
  have h5 := hc.2.2.2.2
  unfold GSCount at *
  rw [goldenStep_iter]
  refine ⟨?_, by omega⟩
  unfold goldenStep
  dsimp only
  split <;> simp [h.1]

/-- The loop only appends calls: earlier calls stay. -/
theorem evals_prefix {bw : BandwidthWeight} {o : Oracle} (s : GS) : s.evals <+: (goldenLoop bw o s).evals := by
  refine (goldenLoop_induct (P := fun t => s.evals <+: t.evals) ?_ (List.prefix_refl _)).1
  intro t ht _
  unfold goldenStep
  dsimp only
  split <;> exact ht.trans (List.prefix_append _ _)

/-- Geometry of the fixed-bandwidth search. -/
structure GSGeom (l u : ℝ) (s : GS) : Prop where
  e1 : s.x1 = s.xL + s.d
  e2 : s.x2 = s.xU - s.d
  ed : s.d = goldenR * (s.xU - s.xL)
  width : s.xU - s.xL = goldenR ^ s.iter * (u - l)
  lo : l ≤ s.xL
  hi : s.xU ≤ u
  inb : ∀ e ∈ s.evals, l ≤ e.x ∧ e.x ≤ u

theorem GSGeom.facts {l u : ℝ} {s : GS} (h : GSGeom l u s) (hlu : l ≤ u) :
    0 ≤ s.xU - s.xL ∧ s.xL ≤ s.x2 ∧ s.x2 ≤ s.x1 ∧ s.x1 ≤ s.xU := by
  obtain ⟨b1, b2⟩ := goldenR_bounds
  have hw : 0 ≤ s.xU - s.xL := by
    rw [h.width]
    have : 0 ≤ goldenR := by linarith
    have : 0 ≤ u - l := by linarith
    positivity
  have := h.e1; have := h.e2; have := h.ed
  refine ⟨hw, ?_, ?_, ?_⟩ <;> nlinarith

theorem GSGeom.init {bw : BandwidthWeight} (hb : bw.mAdaptive = false) {l u : ℝ} (hlu : l ≤ u) (o : Oracle)
    (m : List (ℝ × ℝ)) : GSGeom l u (goldenInit bw l u o m) := by
  obtain ⟨b1, b2⟩ := goldenR_bounds
  unfold goldenInit
  simp only [hb, Bool.false_eq_true, if_false]
  refine ⟨rfl, rfl, rfl, by simp, le_rfl, le_rfl, ?_⟩
  intro e he
  simp only [List.mem_cons, List.not_mem_nil, or_false] at he
  rcases he with rfl | rfl <;> constructor <;> simp only <;> nlinarith

theorem GSGeom.step {bw : BandwidthWeight} (hb : bw.mAdaptive = false) {l u : ℝ} (hlu : l ≤ u) {o : Oracle} {s : GS}
    (h : GSGeom l u s) : GSGeom l u (goldenStep bw o s) := by
  obtain ⟨b1, b2⟩ := goldenR_bounds
  have hsq := goldenR_sq
  obtain ⟨h1, h2, h3, h4⟩ := h.facts hlu
  have e1 := h.e1; have e2 := h.e2; have ed := h.ed; have ew := h.width; have lo := h.lo; have hi := h.hi
  unfold goldenStep
  simp only [hb, Bool.false_eq_true, if_false]
  split
  · refine ⟨rfl, ?_, ?_, ?_, by simp only; linarith, hi, ?_⟩
    · simp only; rw [e1]
      linear_combination (1 + goldenR) * ed + (s.xU - s.xL) * hsq
    · simp only; rw [e2]; linear_combination 0 * hsq
    · simp only; rw [pow_succ, mul_right_comm, ← ew, e2, ed]; ring
    · intro e he
      rcases List.mem_append.1 he with he | he
      · exact h.inb e he
      · rw [List.mem_singleton] at he; subst he
        simp only
        constructor <;> nlinarith
  · refine ⟨?_, rfl, ?_, ?_, lo, by simp only; linarith, ?_⟩
    · simp only; rw [e2]
      linear_combination -(1 + goldenR) * ed - (s.xU - s.xL) * hsq
    · simp only; rw [e1]; ring
    · simp only; rw [pow_succ, mul_right_comm, ← ew, e1, ed]; ring
    · intro e he
      rcases List.mem_append.1 he with he | he
      · exact h.inb e he
      · rw [List.mem_singleton] at he; subst he
        simp only
        constructor <;> nlinarith

/-- The recorded map. -/
structure GSMap (s : GS) : Prop where
  keys : (s.crit.map Prod.fst).Nodup
  mem : ∀ p ∈ s.crit, p.2 < dblMax ∧ ∃ e ∈ s.evals, e.x = p.1 ∧ e.f = p.2
  complete : ∀ e ∈ s.evals, e.f < dblMax → ∃ v, (e.x, v) ∈ s.crit

theorem mapSet_keys {m : List (ℝ × ℝ)} (h : (m.map Prod.fst).Nodup) (k v : ℝ) : ((mapSet k v m).map Prod.fst).Nodup := by
  unfold mapSet
  rw [List.map_cons, List.nodup_cons]
  constructor
  · intro hm
    obtain ⟨p, hp, he⟩ := List.mem_map.1 hm
    have := (List.mem_filter.1 hp).2
    simp at this
    exact this he
  · exact h.sublist (List.filter_sublist.map _)

theorem mem_mapSet {m : List (ℝ × ℝ)} {k v : ℝ} {p : ℝ × ℝ} : p ∈ mapSet k v m ↔ p = (k, v) ∨ (p ∈ m ∧ p.1 ≠ k) := by
  unfold mapSet
  simp [List.mem_filter]

theorem record_step {ev : List Eval} {m : List (ℝ × ℝ)} (hk : (m.map Prod.fst).Nodup)
    (hm : ∀ p ∈ m, p.2 < dblMax ∧ ∃ e ∈ ev, e.x = p.1 ∧ e.f = p.2)
    (hc : ∀ e ∈ ev, e.f < dblMax → ∃ v, (e.x, v) ∈ m) (x f : ℝ) (b : Bool) :
    ((record x f m).map Prod.fst).Nodup ∧
    (∀ p ∈ record x f m, p.2 < dblMax ∧ ∃ e ∈ ev ++ [⟨x, b, f⟩], e.x = p.1 ∧ e.f = p.2) ∧
    (∀ e ∈ ev ++ [⟨x, b, f⟩], e.f < dblMax → ∃ v, (e.x, v) ∈ record x f m) := by
  unfold record
  split
  · rename_i hf
    refine ⟨mapSet_keys hk _ _, ?_, ?_⟩
    · intro p hp
      rcases mem_mapSet.1 hp with rfl | ⟨hp, -⟩
      · exact ⟨hf, _, List.mem_append_right _ List.mem_cons_self, rfl, rfl⟩
      · obtain ⟨h1, e, he, h2⟩ := hm p hp
        exact ⟨h1, e, List.mem_append_left _ he, h2⟩
    · intro e he hfe
      by_cases hx : e.x = x
      · exact ⟨f, mem_mapSet.2 (Or.inl (by rw [hx]))⟩
      · rcases List.mem_append.1 he with he | he
        · obtain ⟨v, hv⟩ := hc e he hfe
          exact ⟨v, mem_mapSet.2 (Or.inr ⟨hv, hx⟩)⟩
        · rw [List.mem_singleton] at he; subst he; exact absurd rfl hx
  · rename_i hf
    refine ⟨hk, ?_, ?_⟩
    · intro p hp
      obtain ⟨h1, e, he, h2⟩ := hm p hp
      exact ⟨h1, e, List.mem_append_left _ he, h2⟩
    · intro e he hfe
      rcases List.mem_append.1 he with he | he
      · exact hc e he hfe
      · rw [List.mem_singleton] at he; subst he; exact absurd hfe hf

theorem GSMap.step {bw : BandwidthWeight} {o : Oracle} {s : GS} (h : GSMap s) : GSMap (goldenStep bw o s) := by
  unfold goldenStep
  dsimp only
  split
  · obtain ⟨a, b, c⟩ := record_step h.keys h.mem h.complete _ _ _
    exact ⟨a, b, c⟩
  · obtain ⟨a, b, c⟩ := record_step h.keys h.mem h.complete _ _ _
    exact ⟨a, b, c⟩

theorem GSMap.start (bw : BandwidthWeight) (l u : ℝ) (o : Oracle) :
    GSMap { goldenInit bw l u o [] with
      crit := record (goldenInit bw l u o []).x2 (goldenInit bw l u o []).f2
        (record (goldenInit bw l u o []).x1 (goldenInit bw l u o []).f1 (goldenInit bw l u o []).crit) } := by
  obtain ⟨a, b, c⟩ := record_step (ev := []) (m := []) (by simp) (by simp) (by simp) (goldenInit bw l u o []).x1
    (goldenInit bw l u o []).f1 (goldenInit bw l u o []).s1
  obtain ⟨a', b', c'⟩ := record_step a b c (goldenInit bw l u o []).x2 (goldenInit bw l u o []).f2
    (goldenInit bw l u o []).s2
  exact ⟨a', b', c'⟩

/-- All calls answered by a fixed function. -/
def Det (f : ℝ → ℝ) (o : Oracle) : Prop := ∀ k b, o k b = (true, f b.mBandwidth)

/-- State of a search with a fixed criterion function. -/
structure GSDet (f : ℝ → ℝ) (s : GS) : Prop where
  a1 : s.f1 = f s.x1
  a2 : s.f2 = f s.x2
  b1 : s.s1 = true
  b2 : s.s2 = true
  ev : ∀ e ∈ s.evals, e.f = f e.x ∧ e.success = true

theorem GSDet.init {f : ℝ → ℝ} {o : Oracle} (ho : Det f o) (bw : BandwidthWeight) (l u : ℝ) (m : List (ℝ × ℝ)) :
    GSDet f (goldenInit bw l u o m) := by
  unfold goldenInit
  refine ⟨by simp [ho _ _], by simp [ho _ _], by simp [ho _ _], by simp [ho _ _], ?_⟩
  intro e he
  simp only [List.mem_cons, List.not_mem_nil, or_false] at he
  rcases he with rfl | rfl <;> simp [ho _ _]

theorem GSDet.step {f : ℝ → ℝ} {o : Oracle} (ho : Det f o) {bw : BandwidthWeight} {s : GS} (h : GSDet f s) :
    GSDet f (goldenStep bw o s) := by
  unfold goldenStep
  dsimp only
  split
  · refine ⟨by simp [ho _ _], h.a1, by simp [ho _ _], h.b2, ?_⟩
    intro e he
    rcases List.mem_append.1 he with he | he
    · exact h.ev e he
    · rw [List.mem_singleton] at he; subst he; simp [ho _ _]
  · refine ⟨h.a2, by simp [ho _ _], h.b1, by simp [ho _ _], ?_⟩
    intro e he
    rcases List.mem_append.1 he with he | he
    · exact h.ev e he
    · rw [List.mem_singleton] at he; subst he; simp [ho _ _]

/-- With a strictly unimodal criterion the bracket keeps the minimiser. -/
theorem bracket_step {f : ℝ → ℝ} {o : Oracle} {bw : BandwidthWeight} (hb : bw.mAdaptive = false) {l u xs : ℝ}
    (hlu : l ≤ u) (hdec : StrictAntiOn f (Set.Icc l xs)) (hinc : StrictMonoOn f (Set.Icc xs u)) {s : GS}
    (hd : GSDet f s) (hg : GSGeom l u s) (hx : s.xL ≤ xs ∧ xs ≤ s.xU) :
    (goldenStep bw o s).xL ≤ xs ∧ xs ≤ (goldenStep bw o s).xU := by
  obtain ⟨h1, h2, h3, h4⟩ := hg.facts hlu
  have lo := hg.lo; have hi := hg.hi
  unfold goldenStep
  simp only [hb, Bool.false_eq_true, if_false]
  split
  · rename_i hlt
    rw [hd.a1, hd.a2] at hlt
    refine ⟨?_, hx.2⟩
    simp only
    by_contra hcon
    push Not at hcon
    have := hinc.monotoneOn (a := s.x2) (b := s.x1) ⟨hcon.le, by linarith⟩ ⟨by linarith, by linarith⟩ h3
    linarith
  · rename_i hlt
    rw [hd.a1, hd.a2] at hlt
    push Not at hlt
    refine ⟨hx.1, ?_⟩
    simp only
    by_contra hcon
    push Not at hcon
    rcases eq_or_lt_of_le h3 with heq | hlt'
    · -- the two points coincide only when the interval has collapsed
      obtain ⟨b1, b2⟩ := goldenR_bounds
      have e1 := hg.e1; have e2 := hg.e2; have ed := hg.ed
      have : s.xU - s.xL = 0 := by nlinarith
      nlinarith
    · have := hdec (a := s.x2) (b := s.x1) ⟨by linarith, by linarith⟩ ⟨by linarith, hcon.le⟩ hlt'
      linarith

end Verif.Model

namespace Verif.Model
open Verif Classical

theorem abs_floor_sub (x : ℝ) : |(⌊x⌋ : ℝ) - x| ≤ 1 := by
  have h1 := Int.floor_le x
  have h2 := Int.lt_floor_add_one x
  rw [abs_le]; constructor <;> linarith

theorem abs_roundC_sub (x : ℝ) : |roundC x - x| ≤ 1 / 2 := by
  unfold roundC
  split
  · have h1 := Int.floor_le (x + 1 / 2)
    have h2 := Int.lt_floor_add_one (x + 1 / 2)
    rw [abs_le]; constructor <;> linarith
  · have h1 := Int.floor_le (-x + 1 / 2)
    have h2 := Int.lt_floor_add_one (-x + 1 / 2)
    rw [abs_le]; constructor <;> linarith

theorem roundC_int (x : ℝ) : ∃ z : ℤ, roundC x = z := by
  unfold roundC
  split
  · exact ⟨_, rfl⟩
  · exact ⟨-⌊-x + 1 / 2⌋, by push_cast; rfl⟩

/-- The state in which the search enters its loop. -/
noncomputable def goldenStart (bw : BandwidthWeight) (l u : ℝ) (o : Oracle) (m : List (ℝ × ℝ)) : GS :=
  let s := goldenInit bw l u o m
  { s with crit := record s.x2 s.f2 (record s.x1 s.f1 s.crit) }

/-- The adaptive search follows an exact golden-section search with the same decisions, up to accumulated rounding. -/
def GSShadow (l u : ℝ) (s : GS) : Prop :=
  ∃ a b : ℝ, l ≤ a ∧ b ≤ u ∧ a ≤ b ∧ s.d = goldenR * (b - a) ∧ |s.x1 - (a + s.d)| ≤ s.iter + 1 ∧
    |s.x2 - (b - s.d)| ≤ s.iter + 1 ∧
    ∀ e ∈ s.evals, l - (s.iter + 1) ≤ e.x ∧ e.x ≤ u + (s.iter + 1) ∧ ∃ z : ℤ, e.x = z

theorem GSShadow.init {bw : BandwidthWeight} (hb : bw.mAdaptive = true) {l u : ℝ} (hlu : l ≤ u) (o : Oracle)
    (m : List (ℝ × ℝ)) : GSShadow l u (goldenInit bw l u o m) := by
  obtain ⟨b1, b2⟩ := goldenR_bounds
  have k1 := abs_floor_sub (l + goldenR * (u - l))
  have k2 := abs_roundC_sub (u - goldenR * (u - l))
  have g0 : 0 ≤ goldenR * (u - l) := mul_nonneg (by linarith) (by linarith)
  have g1 : goldenR * (u - l) ≤ u - l := by nlinarith
  refine ⟨l, u, le_rfl, le_rfl, hlu, rfl, ?_, ?_, ?_⟩
  · simp only [goldenInit, hb, if_true]; push_cast; linarith
  · simp only [goldenInit, hb, if_true]; push_cast; linarith
  · intro e he
    simp only [goldenInit, hb, if_true, List.mem_cons, List.not_mem_nil, or_false] at he
    rw [abs_le] at k1 k2
    have hi : ((goldenInit bw l u o m).iter : ℝ) = 0 := by simp [goldenInit]
    rw [hi]
    rcases he with rfl | rfl
    · refine ⟨?_, ?_, _, rfl⟩ <;> simp only <;> linarith
    · refine ⟨?_, ?_, roundC_int _⟩ <;> simp only <;> linarith

theorem GSShadow.step {bw : BandwidthWeight} (hb : bw.mAdaptive = true) {l u : ℝ} {o : Oracle} {s : GS}
    (h : GSShadow l u s) : GSShadow l u (goldenStep bw o s) := by
  obtain ⟨b1, b2⟩ := goldenR_bounds
  have hsq := goldenR_sq
  obtain ⟨a, b, hla, hbu, hab, hd, h1, h2, hev⟩ := h
  have w0 : 0 ≤ b - a := by linarith
  have d0 : 0 ≤ s.d := by rw [hd]; exact mul_nonneg (by linarith) w0
  have d1 : s.d ≤ b - a := by rw [hd]; nlinarith
  have d2 : 0 ≤ goldenR * s.d := mul_nonneg (by linarith) d0
  have d3 : goldenR * s.d ≤ s.d := by nlinarith
  have key : s.d + goldenR * s.d = b - a := by rw [hd]; linear_combination (b - a) * hsq
  have hit : ((goldenStep bw o s).iter : ℝ) = s.iter + 1 := by rw [goldenStep_iter]; push_cast; rfl
  unfold GSShadow
  rw [hit]
  unfold goldenStep
  simp only [hb, if_true]
  rw [abs_le] at h1 h2
  split
  · have k := abs_roundC_sub (s.x2 + goldenR * s.d)
    rw [abs_le] at k
    refine ⟨b - s.d, b, by linarith, hbu, by linarith, by simp only; ring, ?_, ?_, ?_⟩
    · simp only; rw [abs_le]; constructor <;> linarith
    · simp only; rw [abs_le]; constructor <;> linarith
    · intro e he
      rcases List.mem_append.1 he with he | he
      · obtain ⟨e1, e2, e3⟩ := hev e he
        exact ⟨by linarith, by linarith, e3⟩
      · rw [List.mem_singleton] at he; subst he
        refine ⟨?_, ?_, roundC_int _⟩ <;> simp only <;> linarith
  · have k := abs_floor_sub (s.x1 - goldenR * s.d)
    rw [abs_le] at k
    refine ⟨a, a + s.d, hla, by linarith, by linarith, by simp only; ring, ?_, ?_, ?_⟩
    · simp only; rw [abs_le]; constructor <;> linarith
    · simp only; rw [abs_le]; constructor <;> linarith
    · intro e he
      rcases List.mem_append.1 he with he | he
      · obtain ⟨e1, e2, e3⟩ := hev e he
        exact ⟨by linarith, by linarith, e3⟩
      · rw [List.mem_singleton] at he; subst he
        refine ⟨?_, ?_, _, rfl⟩ <;> simp only <;> linarith

theorem hundred_lt_dblMax : (100 : ℝ) < dblMax := by
  unfold dblMax
  have h2 : (2 : ℝ) ^ 7 ≤ 2 ^ 1023 := pow_le_pow_right₀ (by norm_num) (by norm_num)
  have h3 : (2⁻¹ : ℝ) ^ 52 ≤ 1 := pow_le_one₀ (by norm_num) (by norm_num)
  have h4 : (100 : ℝ) < 2 ^ 7 := by norm_num
  generalize (2 : ℝ) ^ 1023 = z at h2 ⊢
  generalize (2⁻¹ : ℝ) ^ 52 = y at h3 ⊢
  nlinarith

/-- Evaluated bandwidths are near everything in the current interval. -/
def GSNear (l u : ℝ) (s : GS) : Prop :=
  ∀ k (h : k + 1 < s.evals.length) (y : ℝ), s.xL ≤ y → y ≤ s.xU → |s.evals[k + 1].x - y| ≤ goldenR ^ k * (u - l)

theorem GSNear.init {bw : BandwidthWeight} (hb : bw.mAdaptive = false) {l u : ℝ} (hlu : l ≤ u) (o : Oracle)
    (m c : List (ℝ × ℝ)) : GSNear l u { goldenInit bw l u o m with crit := c } := by
  have hg := GSGeom.init hb hlu o m
  intro k h y h1 h2
  have hl : (goldenInit bw l u o m).evals.length = 2 := rfl
  simp only [hl] at h
  have : k = 0 := by omega
  subst this
  obtain ⟨g1, g2⟩ := hg.inb (goldenInit bw l u o m).evals[1] (List.getElem_mem _)
  simp only [goldenInit] at h1 h2
  have e : ∀ z : ℝ, l ≤ z → z ≤ u → |z - y| ≤ goldenR ^ 0 * (u - l) := by
    intro z z1 z2
    rw [pow_zero, one_mul, abs_le]; constructor <;> linarith
  exact e _ g1 g2

theorem GSNear.step {bw : BandwidthWeight} (hb : bw.mAdaptive = false) {l u : ℝ} (hlu : l ≤ u) {o : Oracle} {s : GS}
    (h : GSNear l u s) (hg : GSGeom l u s) (hc : GSCount s) : GSNear l u (goldenStep bw o s) := by
  have hg' := hg.step (o := o) hb hlu
  obtain ⟨f0, f1, f2, f3⟩ := hg.facts hlu
  obtain ⟨f0', f1', f2', f3'⟩ := hg'.facts hlu
  have hw := hg'.width
  rw [goldenStep_iter] at hw
  have hlen := hc.1
  intro k hk y y1 y2
  have nest : s.xL ≤ (goldenStep bw o s).xL ∧ (goldenStep bw o s).xU ≤ s.xU := by
    unfold goldenStep; dsimp only; split <;> constructor <;> simp only <;> linarith
  have hlen' : (goldenStep bw o s).evals.length = s.evals.length + 1 := by
    unfold goldenStep; dsimp only; split <;> simp
  by_cases hlt : k + 1 < s.evals.length
  · have := h k hlt y (by linarith) (by linarith)
    have e : (goldenStep bw o s).evals[k + 1] = s.evals[k + 1] := by
      unfold goldenStep; dsimp only; split <;> exact List.getElem_append_left hlt
    rw [e]; exact this
  · have hk' : k = s.iter + 1 := by omega
    have e : (goldenStep bw o s).xL ≤ (goldenStep bw o s).evals[k + 1].x ∧
        (goldenStep bw o s).evals[k + 1].x ≤ (goldenStep bw o s).xU := by
      have e2 : (goldenStep bw o s).evals[k + 1].x = (goldenStep bw o s).x1 ∨
          (goldenStep bw o s).evals[k + 1].x = (goldenStep bw o s).x2 := by
        unfold goldenStep; dsimp only
        split
        · left; simp only; rw [List.getElem_append_right (by omega)]; simp
        · right; simp only; rw [List.getElem_append_right (by omega)]; simp
      rcases e2 with e2 | e2 <;> rw [e2] <;> constructor <;> linarith
    subst hk'
    rw [← hw, abs_le]
    constructor <;> linarith [e.1, e.2]

/-- One left-going adaptive step with the criterion `f x = x`. -/
theorem left_step {bw : BandwidthWeight} (hb : bw.mAdaptive = true) {o : Oracle} (ho : Det id o) {s : GS}
    (hc : goldenCond s) (hn : ¬ s.f1 < s.f2) (z : ℤ) (hz : ⌊s.x1 - goldenR * s.d⌋ = z) :
    ∃ t, goldenLoop bw o s = goldenLoop bw o t ∧ t.x1 = s.x2 ∧ t.x2 = z ∧ t.d = goldenR * s.d ∧ t.f1 = s.f2 ∧ t.f2 = z ∧
      t.s1 = s.s1 ∧ t.s2 = true ∧ t.iter = s.iter + 1 ∧ t.evals = s.evals ++ [⟨z, true, z⟩] := by
  refine ⟨goldenStep bw o s, ?_, ?_⟩
  · conv_lhs => rw [goldenLoop, if_pos hc]
  · unfold goldenStep
    simp only [hb, if_true, if_neg hn, hz, ho _ _, id, and_self]

end Verif.Model

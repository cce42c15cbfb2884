import Verif.Lemmas.BandwidthSelector

/-! # C14–C18: golden-section bandwidth search -/

namespace Verif.Props
open Verif Verif.Model Classical

/-- The three ways a search ends. -/
theorem optimize_cases (bw : BandwidthWeight) (l u : ℝ) (o : Oracle) (m : List (ℝ × ℝ)) :
    let s0 := goldenInit bw l u o m
    let s := goldenLoop bw o (goldenStart bw l u o m)
    (¬ (s0.s1 = true ∧ s0.s2 = true) ∧ optimize bw l u o m = ⟨.ok bw, s0.evals, s0.crit⟩) ∨
    (s0.s1 = true ∧ s0.s2 = true ∧ s0.f1 = dblMax ∧ s0.f2 = dblMax ∧
      optimize bw l u o m = ⟨.throw .runtime, s0.evals, s0.crit⟩) ∨
    (s0.s1 = true ∧ s0.s2 = true ∧ ¬ (s0.f1 = dblMax ∧ s0.f2 = dblMax) ∧ s.s1 = true ∧ s.s2 = true ∧
      optimize bw l u o m = ⟨.ok { mBandwidth := s.xopt, mAdaptive := bw.mAdaptive, mKernel := bw.mKernel },
        s.evals, s.crit⟩) ∨
    (s0.s1 = true ∧ s0.s2 = true ∧ ¬ (s0.f1 = dblMax ∧ s0.f2 = dblMax) ∧ ¬ (s.s1 = true ∧ s.s2 = true) ∧
      optimize bw l u o m = ⟨.ok bw, s.evals, s.crit⟩) := by
  intro s0 s
  by_cases h1 : s0.s1 = true ∧ s0.s2 = true
  · by_cases h2 : s0.f1 = dblMax ∧ s0.f2 = dblMax
    · right; left
      refine ⟨h1.1, h1.2, h2.1, h2.2, ?_⟩
      unfold optimize
      simp only
      rw [if_neg (by simpa using h1), if_pos h2]
    · by_cases h3 : s.s1 = true ∧ s.s2 = true
      · right; right; left
        refine ⟨h1.1, h1.2, h2, h3.1, h3.2, ?_⟩
        unfold optimize
        exact (if_neg (by simpa using h1)).trans ((if_neg h2).trans (if_pos h3))
      · right; right; right
        refine ⟨h1.1, h1.2, h2, h3, ?_⟩
        unfold optimize
        exact (if_neg (by simpa using h1)).trans ((if_neg h2).trans (if_neg h3))
  · left
    refine ⟨h1, ?_⟩
    unfold optimize
    simp only
    rw [if_pos h1]

theorem loop_best {bw : BandwidthWeight} {o : Oracle} {s : GS} (h : GSBest s) : GSBest (goldenLoop bw o s) :=
  (goldenLoop_induct (P := GSBest) (fun _ h hc => h.step hc) h).1

/-- **C14.** Whatever the criterion answers, when the search succeeds (every call up to the end reported success) the returned
bandwidth was evaluated and no evaluated bandwidth had a smaller criterion value; in particular it is not worse than the two
starting candidates. -/
theorem C14_returns_best_evaluated (bw : BandwidthWeight) (l u : ℝ) (o : Oracle) (m : List (ℝ × ℝ)) (b : BandwidthWeight)
    (hout : (optimize bw l u o m).out = .ok b) (hall : ∀ e ∈ (optimize bw l u o m).evals, e.success = true) :
    ∃ e ∈ (optimize bw l u o m).evals, e.x = b.mBandwidth ∧ ∀ e' ∈ (optimize bw l u o m).evals, e.f ≤ e'.f := by
  have hb0 := GSBest.init bw l u o m
  rcases optimize_cases bw l u o m with ⟨h, he⟩ | ⟨-, -, -, -, he⟩ | ⟨-, -, -, -, -, he⟩ | ⟨-, -, -, h, he⟩
  · rw [he] at hall
    exfalso; apply h
    obtain ⟨e1, m1, -, -, k1⟩ := hb0.m1
    obtain ⟨e2, m2, -, -, k2⟩ := hb0.m2
    exact ⟨by rw [← k1]; exact hall e1 m1, by rw [← k2]; exact hall e2 m2⟩
  · rw [he] at hout; cases hout
  · rw [he] at hout ⊢
    simp only [Res.ok.injEq] at hout
    subst hout
    have hb : GSBest (goldenLoop bw o _) := loop_best (bw := bw) (o := o) (s :=
      goldenStart bw l u o m)
      ⟨hb0.m1, hb0.m2, hb0.best⟩
    simp only [GS.xopt]
    split
    · rename_i hlt
      obtain ⟨e, he, hx, hf, -⟩ := hb.m1
      refine ⟨e, he, hx, fun e' he' => ?_⟩
      have := hb.best e' he'
      rw [min_eq_left hlt.le] at this
      rw [hf]; exact this
    · rename_i hlt
      obtain ⟨e, he, hx, hf, -⟩ := hb.m2
      refine ⟨e, he, hx, fun e' he' => ?_⟩
      have := hb.best e' he'
      rw [min_eq_right (not_lt.1 hlt)] at this
      rw [hf]; exact this
  · rw [he] at hall
    exfalso; apply h
    have hb : GSBest (goldenLoop bw o _) := loop_best (bw := bw) (o := o) (s :=
      goldenStart bw l u o m)
      ⟨hb0.m1, hb0.m2, hb0.best⟩
    obtain ⟨e1, m1, -, -, k1⟩ := hb.m1
    obtain ⟨e2, m2, -, -, k2⟩ := hb.m2
    exact ⟨by rw [← k1]; exact hall e1 m1, by rw [← k2]; exact hall e2 m2⟩

/-- **C14 (unimodal criteria).** For a fixed bandwidth and a criterion that strictly decreases up to `xs` and strictly
increases from there, the returned bandwidth is within `R^k (upper - lower)` of `xs`, `k` the number of calls after the first
two, and the search stopped because this is below `1e-4 / R`, or the last two values differ by at most `1e-4`, or after 100
iterations. -/
theorem C14_unimodal_converges (bw : BandwidthWeight) (hb : bw.mAdaptive = false) (l u xs : ℝ) (hl : l ≤ xs) (hu : xs ≤ u)
    (f : ℝ → ℝ) (hdec : StrictAntiOn f (Set.Icc l xs)) (hinc : StrictMonoOn f (Set.Icc xs u)) (o : Oracle)
    (ho : Det f o) (m : List (ℝ × ℝ)) (b : BandwidthWeight) (hout : (optimize bw l u o m).out = .ok b) :
    ∃ k, (optimize bw l u o m).evals.length = k + 2 ∧ |b.mBandwidth - xs| ≤ goldenR ^ k * (u - l) ∧
      (goldenR ^ k * (u - l) ≤ 1e-4 / goldenR ∨ k = 100 ∨
        ∃ e1 ∈ (optimize bw l u o m).evals, ∃ e2 ∈ (optimize bw l u o m).evals, |f e2.x - f e1.x| ≤ 1e-4 ∧
          (b.mBandwidth = e1.x ∨ b.mBandwidth = e2.x)) := by
  have hlu : l ≤ u := hl.trans hu
  have hd0 := GSDet.init ho bw l u m
  have hg0 := GSGeom.init hb hlu o m
  have hc0 := GSCount.init bw l u o m
  have hb0 := GSBest.init bw l u o m
  have key := goldenLoop_induct (bw := bw) (o := o)
    (P := fun s => GSDet f s ∧ GSGeom l u s ∧ GSCount s ∧ GSBest s ∧ s.xL ≤ xs ∧ xs ≤ s.xU)
    (fun s h hc => ⟨h.1.step ho, h.2.1.step hb hlu, h.2.2.1.step hc, h.2.2.2.1.step hc,
      bracket_step hb hlu hdec hinc h.1 h.2.1 h.2.2.2.2⟩)
    (s := goldenStart bw l u o m)
    ⟨⟨hd0.a1, hd0.a2, hd0.b1, hd0.b2, hd0.ev⟩, ⟨hg0.e1, hg0.e2, hg0.ed, hg0.width, hg0.lo, hg0.hi, hg0.inb⟩,
      hc0, ⟨hb0.m1, hb0.m2, hb0.best⟩, hl, hu⟩
  rcases optimize_cases bw l u o m with ⟨h, he⟩ | ⟨-, -, -, -, he⟩ | ⟨-, -, -, -, -, he⟩ | ⟨-, -, -, h, he⟩
  · exact absurd ⟨hd0.b1, hd0.b2⟩ h
  · rw [he] at hout; cases hout
  · rw [he] at hout ⊢
    simp only [Res.ok.injEq] at hout
    subst hout
    simp only
    generalize goldenLoop bw o _ = s at key
    obtain ⟨⟨kd, kg, kc, kb, kx1, kx2⟩, kn⟩ := key
    obtain ⟨g1, g2, g3, g4⟩ := kg.facts hlu
    refine ⟨s.iter, kc.1, ?_, ?_⟩
    · rw [← kg.width]
      unfold GS.xopt
      rw [abs_le]
      split <;> constructor <;> linarith
    · unfold goldenCond at kn
      by_cases hd : |s.d| > 1e-4
      · by_cases hi : s.iter < 100
        · right; right
          have hf : ¬ |s.f2 - s.f1| > 1e-4 := fun hf => kn ⟨kd.b1, kd.b2, hd, hf, hi⟩
          obtain ⟨e1, m1, y1, -, -⟩ := kb.m1
          obtain ⟨e2, m2, y2, -, -⟩ := kb.m2
          refine ⟨e1, m1, e2, m2, ?_, ?_⟩
          · rw [y1, y2, ← kd.a1, ← kd.a2]; exact not_lt.1 hf
          · unfold GS.xopt
            split
            · left; exact y1.symm
            · right; exact y2.symm
        · right; left; have := kc.2; omega
      · left
        push Not at hd
        rw [← kg.width, le_div_iff₀ (by linarith [goldenR_bounds.1]), mul_comm, ← kg.ed]
        exact (le_abs_self _).trans hd
  · exact absurd ⟨key.1.1.b1, key.1.1.b2⟩ h

/-- A unimodal criterion meeting the hypotheses: `(x - 3)²` on `[0, 10]`. -/
example : StrictAntiOn (fun x : ℝ => (x - 3) ^ 2) (Set.Icc 0 3) ∧ StrictMonoOn (fun x : ℝ => (x - 3) ^ 2) (Set.Icc 3 10) := by
  constructor
  · intro a ha b hb hab; simp only [Set.mem_Icc] at ha hb; nlinarith
  · intro a ha b hb hab; simp only [Set.mem_Icc] at ha hb; nlinarith

/-- **C15 (fixed bandwidths).** Every bandwidth evaluated, and the bandwidth returned unless it is the supplied one, lies
between the bounds. -/
theorem C15_fixed_within_bounds (bw : BandwidthWeight) (hb : bw.mAdaptive = false) (l u : ℝ) (hlu : l ≤ u) (o : Oracle)
    (m : List (ℝ × ℝ)) :
    (∀ e ∈ (optimize bw l u o m).evals, l ≤ e.x ∧ e.x ≤ u) ∧
    (∀ b, (optimize bw l u o m).out = .ok b → b = bw ∨ (l ≤ b.mBandwidth ∧ b.mBandwidth ≤ u)) := by
  have hg0 := GSGeom.init hb hlu o m
  have key := (goldenLoop_induct (bw := bw) (o := o) (P := GSGeom l u) (fun s h _ => h.step hb hlu)
    (s := goldenStart bw l u o m)
    ⟨hg0.e1, hg0.e2, hg0.ed, hg0.width, hg0.lo, hg0.hi, hg0.inb⟩).1
  rcases optimize_cases bw l u o m with ⟨h, he⟩ | ⟨-, -, -, -, he⟩ | ⟨-, -, -, -, -, he⟩ | ⟨-, -, -, h, he⟩
  · rw [he]; exact ⟨hg0.inb, fun b hb => Or.inl (Res.ok.inj hb).symm⟩
  · rw [he]; exact ⟨hg0.inb, fun b hb => by cases hb⟩
  · rw [he]
    refine ⟨key.inb, fun b hb => Or.inr ?_⟩
    have := Res.ok.inj hb
    subst this
    simp only
    generalize goldenLoop bw o _ = s at key
    obtain ⟨g1, g2, g3, g4⟩ := key.facts hlu
    have := key.lo; have := key.hi
    unfold GS.xopt
    split <;> constructor <;> linarith
  · rw [he]; exact ⟨key.inb, fun b hb => Or.inl (Res.ok.inj hb).symm⟩

/-- **C15 (adaptive bandwidths), partial.** Every evaluated adaptive bandwidth is an integer and exceeds the bounds by less
than the number of calls made. Missing from the full claim: staying within the bounds, which is false
(`C15_adaptive_leaves_bounds`). -/
theorem C15_adaptive_near_bounds_partial (bw : BandwidthWeight) (hb : bw.mAdaptive = true) (l u : ℝ) (hlu : l ≤ u)
    (o : Oracle) (m : List (ℝ × ℝ)) :
    ∀ e ∈ (optimize bw l u o m).evals, (∃ z : ℤ, e.x = z) ∧ l - (optimize bw l u o m).evals.length < e.x ∧
      e.x < u + (optimize bw l u o m).evals.length := by
  have hg0 := GSShadow.init hb hlu o m
  have hc0 := GSCount.init bw l u o m
  have key := (goldenLoop_induct (bw := bw) (o := o) (P := fun s => GSShadow l u s ∧ GSCount s)
    (fun s h hc => ⟨h.1.step hb, h.2.step hc⟩)
    (s := goldenStart bw l u o m)
    ⟨hg0, hc0⟩).1
  have fin : ∀ s : GS, GSShadow l u s → GSCount s → ∀ e ∈ s.evals, (∃ z : ℤ, e.x = z) ∧ l - s.evals.length < e.x ∧
      e.x < u + s.evals.length := by
    rintro s ⟨a, b, -, -, -, -, -, -, h⟩ ⟨hc, -⟩ e he
    obtain ⟨h1, h2, h3⟩ := h e he
    rw [hc]; push_cast
    exact ⟨h3, by linarith, by linarith⟩
  rcases optimize_cases bw l u o m with ⟨h, he⟩ | ⟨-, -, -, -, he⟩ | ⟨-, -, -, -, -, he⟩ | ⟨-, -, -, h, he⟩ <;> rw [he]
  · exact fin _ hg0 hc0
  · exact fin _ hg0 hc0
  · exact fin _ key.1 key.2
  · exact fin _ key.1 key.2

/-- **C15 fails for adaptive bandwidths**: with bounds 20 and 29 and the criterion "smaller is better", the search evaluates
and returns bandwidth 19. -/
theorem C15_adaptive_leaves_bounds (k : KernelType) :
    ∃ r, optimize ⟨20, true, k⟩ 20 29 (fun _ b => (true, b.mBandwidth)) [] = r ∧ r.out = .ok ⟨19, true, k⟩ ∧
      r.evals.map Eval.x = [25, 23, 21, 20, 19, 19] := by
  obtain ⟨b1, b2⟩ := goldenR_bounds
  have hsq := goldenR_sq
  have p3 : goldenR * (goldenR * goldenR) = 2 * goldenR - 1 := by
    have : goldenR * goldenR = 1 - goldenR := by rw [← sq]; exact hsq
    rw [this]; linarith [this, mul_sub goldenR 1 goldenR]
  have p2 : goldenR * goldenR = 1 - goldenR := by rw [← sq]; exact hsq
  have p4 : goldenR * (goldenR * (goldenR * goldenR)) = 2 - 3 * goldenR := by
    rw [p3]; linear_combination 2 * p2
  have p5 : goldenR * (goldenR * (goldenR * (goldenR * goldenR))) = 5 * goldenR - 3 := by
    rw [p4]; linear_combination (-3) * p2
  set bw : BandwidthWeight := ⟨20, true, k⟩ with hbw
  set o : Oracle := fun _ b => (true, b.mBandwidth) with ho
  have hdet : Det id o := fun _ _ => rfl
  have hbig : ∀ x : ℝ, x ≤ 100 → x < dblMax := by
    intro x hx
    exact hx.trans_lt hundred_lt_dblMax
  have f1 : ⌊(20 : ℝ) + goldenR * (29 - 20)⌋ = 25 := by rw [Int.floor_eq_iff]; push_cast; constructor <;> linarith
  have f2 : roundC (29 - goldenR * (29 - 20)) = 23 := by
    unfold roundC
    rw [if_pos (by linarith)]
    have : ⌊(29 : ℝ) - goldenR * (29 - 20) + 1 / 2⌋ = 23 := by rw [Int.floor_eq_iff]; push_cast; constructor <;> linarith
    rw [this]; norm_num
  set s0 := goldenInit bw 20 29 o [] with hs0
  have hi : s0.x1 = 25 ∧ s0.x2 = 23 ∧ s0.f1 = 25 ∧ s0.f2 = 23 ∧ s0.s1 = true ∧ s0.s2 = true ∧ s0.iter = 0 ∧
      s0.d = goldenR * 9 ∧ s0.evals = [⟨25, true, 25⟩, ⟨23, true, 23⟩] := by
    simp only [hs0, goldenInit, hbw, if_true, f1, f2, ho]
    norm_num
  obtain ⟨a1, a2, a3, a4, a5, a6, a7, a8, a9⟩ := hi
  set t0 : GS := { s0 with crit := record s0.x2 s0.f2 (record s0.x1 s0.f1 s0.crit) } with ht0
  have c0 : goldenCond t0 := by
    refine ⟨a5, a6, ?_, ?_, ?_⟩
    · simp only [ht0, a8]; rw [abs_of_pos (by linarith)]; linarith
    · simp only [ht0, a3, a4]; norm_num
    · simp only [ht0, a7]; norm_num
  obtain ⟨t1, l1, x11, x12, d1, g11, g12, q11, q12, i1, v1⟩ := left_step (bw := bw) rfl hdet c0
    (by simp only [ht0, a3, a4]; norm_num) 21 (by
      simp only [ht0, a1, a8]
      rw [Int.floor_eq_iff]; push_cast; constructor <;> linarith)
  have c1 : goldenCond t1 := by
    refine ⟨by rw [q11]; exact a5, q12, ?_, ?_, ?_⟩
    · rw [d1]; simp only [ht0, a8]; rw [abs_of_pos (by nlinarith)]; nlinarith
    · rw [g11, g12]; simp only [ht0, a4]; norm_num
    · rw [i1]; simp only [ht0, a7]; norm_num
  obtain ⟨t2, l2, x21, x22, d2, g21, g22, q21, q22, i2, v2⟩ := left_step (bw := bw) rfl hdet c1
    (by rw [g11, g12]; simp only [ht0, a4]; norm_num) 20 (by
      rw [x11, d1]; simp only [ht0, a2, a8]
      have e : goldenR * (goldenR * (goldenR * 9)) = 9 * (2 * goldenR - 1) := by rw [← p3]; ring
      rw [e, Int.floor_eq_iff]; push_cast; constructor <;> linarith)
  have c2 : goldenCond t2 := by
    refine ⟨by rw [q21, q11]; exact a5, q22, ?_, ?_, ?_⟩
    · rw [d2, d1]; simp only [ht0, a8]
      have e : goldenR * (goldenR * (goldenR * 9)) = 9 * (2 * goldenR - 1) := by rw [← p3]; ring
      rw [e, abs_of_pos (by linarith)]; linarith
    · rw [g21, g22, g12]; norm_num
    · rw [i2, i1]; simp only [ht0, a7]; norm_num
  obtain ⟨t3, l3, x31, x32, d3, g31, g32, q31, q32, i3, v3⟩ := left_step (bw := bw) rfl hdet c2
    (by rw [g21, g22, g12]; norm_num) 19 (by
      rw [x21, x12, d2, d1]; simp only [ht0, a8]
      have e : goldenR * (goldenR * (goldenR * (goldenR * 9))) = 9 * (2 - 3 * goldenR) := by rw [← p4]; ring
      rw [e, Int.floor_eq_iff]; push_cast; constructor <;> linarith)
  have c3 : goldenCond t3 := by
    refine ⟨by rw [q31, q21, q11]; exact a5, q32, ?_, ?_, ?_⟩
    · rw [d3, d2, d1]; simp only [ht0, a8]
      have e : goldenR * (goldenR * (goldenR * (goldenR * 9))) = 9 * (2 - 3 * goldenR) := by rw [← p4]; ring
      rw [e, abs_of_pos (by linarith)]; linarith
    · rw [g31, g32, g22]; norm_num
    · rw [i3, i2, i1]; simp only [ht0, a7]; norm_num
  obtain ⟨t4, l4, x41, x42, d4, g41, g42, q41, q42, i4, v4⟩ := left_step (bw := bw) rfl hdet c3
    (by rw [g31, g32, g22]; norm_num) 19 (by
      rw [x31, x22, d3, d2, d1]; simp only [ht0, a8]
      have e : goldenR * (goldenR * (goldenR * (goldenR * (goldenR * 9)))) = 9 * (5 * goldenR - 3) := by rw [← p5]; ring
      rw [e, Int.floor_eq_iff]; push_cast; constructor <;> linarith)
  have c4 : ¬ goldenCond t4 := by
    intro h
    have := h.2.2.2.1
    rw [g41, g42, g32] at this
    norm_num at this
  have hloop : goldenLoop bw o t0 = t4 := by
    rw [l1, l2, l3, l4, goldenLoop, if_neg c4]
  refine ⟨_, rfl, ?_⟩
  have hopt : optimize bw 20 29 o [] = ⟨.ok ⟨t4.xopt, true, k⟩, t4.evals, t4.crit⟩ := by
    unfold optimize
    simp only [← hs0]
    rw [if_neg (by simp [a5, a6]), if_neg (by
      rintro ⟨h, -⟩
      rw [a3] at h
      exact absurd h (hbig 25 (by norm_num)).ne), ← ht0, hloop, if_pos ⟨by rw [q41, q31, q21, q11]; exact a5, q42⟩]
  rw [hopt]
  constructor
  · simp only [GS.xopt, g41, g42, g32, x42]
    norm_num
  · simp only [v4, v3, v2, v1]
    simp only [ht0, a9]
    norm_num

/-- **C16.** Whatever the criterion answers, the search calls it between 2 and 102 times. -/
theorem C16_call_bound (bw : BandwidthWeight) (l u : ℝ) (o : Oracle) (m : List (ℝ × ℝ)) :
    2 ≤ (optimize bw l u o m).evals.length ∧ (optimize bw l u o m).evals.length ≤ 102 := by
  have hc0 := GSCount.init bw l u o m
  have key := (goldenLoop_induct (bw := bw) (o := o) (P := GSCount) (fun s h hc => h.step hc)
    (s := goldenStart bw l u o m) hc0).1
  rcases optimize_cases bw l u o m with ⟨h, he⟩ | ⟨-, -, -, -, he⟩ | ⟨-, -, -, -, -, he⟩ | ⟨-, -, -, h, he⟩ <;> rw [he]
  · rw [hc0.1]; have := hc0.2; omega
  · rw [hc0.1]; have := hc0.2; omega
  · rw [key.1]; have := key.2; omega
  · rw [key.1]; have := key.2; omega

/-- **C16 (after a failed call).** A call that does not report success is the last one, except that the two starting calls
are always both made. -/
theorem C16_stops_after_failure (bw : BandwidthWeight) (l u : ℝ) (o : Oracle) (m : List (ℝ × ℝ)) (i : ℕ)
    (hi : i < (optimize bw l u o m).evals.length) (hf : (optimize bw l u o m).evals[i].success = false) :
    i + 1 = (optimize bw l u o m).evals.length ∨ (optimize bw l u o m).evals.length = 2 := by
  -- all calls but the last are successes whenever the loop is entered
  have inv : ∀ s : GS, (s.s1 = true ∧ s.s2 = true → ∀ e ∈ s.evals, e.success = true) →
      (∀ i (h : i < s.evals.length), s.evals[i].success = false → i + 1 = s.evals.length ∨ s.evals.length = 2) →
      (∀ i (h : i < (goldenLoop bw o s).evals.length), (goldenLoop bw o s).evals[i].success = false →
        i + 1 = (goldenLoop bw o s).evals.length ∨ (goldenLoop bw o s).evals.length = 2) := by
    intro s h1 h2
    refine (goldenLoop_induct (bw := bw) (o := o) (P := fun s =>
      (s.s1 = true ∧ s.s2 = true → ∀ e ∈ s.evals, e.success = true) ∧
      (∀ i (h : i < s.evals.length), s.evals[i].success = false → i + 1 = s.evals.length ∨ s.evals.length = 2))
      ?_ ⟨h1, h2⟩).1.2
    rintro s ⟨h1, h2⟩ hc
    have hall := h1 ⟨hc.1, hc.2.1⟩
    unfold goldenStep
    dsimp only
    split
    · refine ⟨?_, ?_⟩
      · rintro ⟨hs, -⟩ e he
        rcases List.mem_append.1 he with he | he
        · exact hall e he
        · rw [List.mem_singleton] at he; subst he; exact hs
      · intro i h hf
        left
        simp only [List.length_append, List.length_singleton] at h ⊢
        by_contra hne
        rw [List.getElem_append_left (by omega)] at hf
        rw [hall _ (List.getElem_mem _)] at hf; cases hf
    · refine ⟨?_, ?_⟩
      · rintro ⟨-, hs⟩ e he
        rcases List.mem_append.1 he with he | he
        · exact hall e he
        · rw [List.mem_singleton] at he; subst he; exact hs
      · intro i h hf
        left
        simp only [List.length_append, List.length_singleton] at h ⊢
        by_contra hne
        rw [List.getElem_append_left (by omega)] at hf
        rw [hall _ (List.getElem_mem _)] at hf; cases hf
  have hinit : ∀ (cr : List (ℝ × ℝ)), let s := { goldenInit bw l u o m with crit := cr }
      (s.s1 = true ∧ s.s2 = true → ∀ e ∈ s.evals, e.success = true) ∧
      (∀ i (h : i < s.evals.length), s.evals[i].success = false → i + 1 = s.evals.length ∨ s.evals.length = 2) := by
    intro cr
    refine ⟨?_, fun i h hf => Or.inr rfl⟩
    rintro ⟨a, b⟩ e he
    simp only [goldenInit, List.mem_cons, List.not_mem_nil, or_false] at he a b
    rcases he with rfl | rfl
    · exact a
    · exact b
  revert i
  rcases optimize_cases bw l u o m with ⟨h, he⟩ | ⟨-, -, -, -, he⟩ | ⟨-, -, -, -, -, he⟩ | ⟨-, -, -, h, he⟩ <;> rw [he]
  · intro i hi hf; exact Or.inr rfl
  · intro i hi hf; exact Or.inr rfl
  · intro i hi hf; exact inv _ (hinit _).1 (hinit _).2 i hi hf
  · intro i hi hf; exact inv _ (hinit _).1 (hinit _).2 i hi hf

/-- **C16 (shrinking).** For a fixed bandwidth the search closes in geometrically: apart from the very first call, the
bandwidth of call `k` (counted from 0) is within `R^(k-1) (upper - lower)` of the bandwidth finally returned. -/
theorem C16_interval_shrinks (bw : BandwidthWeight) (hb : bw.mAdaptive = false) (l u : ℝ) (hlu : l ≤ u) (o : Oracle)
    (m : List (ℝ × ℝ)) (b : BandwidthWeight) (hout : (optimize bw l u o m).out = .ok b)
    (hall : ∀ e ∈ (optimize bw l u o m).evals, e.success = true) (k : ℕ)
    (hk : k + 1 < (optimize bw l u o m).evals.length) :
    |(optimize bw l u o m).evals[k + 1].x - b.mBandwidth| ≤ ((√5 - 1) / 2) ^ k * (u - l) := by
  have hb0 := GSBest.init bw l u o m
  have hg0 := GSGeom.init hb hlu o m
  have hc0 := GSCount.init bw l u o m
  have key := (goldenLoop_induct (bw := bw) (o := o) (P := fun s => GSGeom l u s ∧ GSCount s ∧ GSNear l u s)
    (fun s h hc => ⟨h.1.step hb hlu, h.2.1.step hc, h.2.2.step hb hlu h.1 h.2.1⟩)
    (s := goldenStart bw l u o m)
    ⟨⟨hg0.e1, hg0.e2, hg0.ed, hg0.width, hg0.lo, hg0.hi, hg0.inb⟩, hc0, GSNear.init hb hlu o m _⟩).1
  revert hk
  rcases optimize_cases bw l u o m with ⟨h, he⟩ | ⟨-, -, -, -, he⟩ | ⟨-, -, -, -, -, he⟩ | ⟨-, -, -, h, he⟩
  · rw [he] at hall
    exfalso; apply h
    obtain ⟨e1, m1, -, -, k1⟩ := hb0.m1
    obtain ⟨e2, m2, -, -, k2⟩ := hb0.m2
    exact ⟨by rw [← k1]; exact hall e1 m1, by rw [← k2]; exact hall e2 m2⟩
  · rw [he] at hout; cases hout
  · rw [he] at hout ⊢
    have := Res.ok.inj hout
    subst this
    simp only
    intro hk
    generalize goldenLoop bw o _ = s at key hk ⊢
    obtain ⟨g1, g2, g3, g4⟩ := key.1.facts hlu
    refine key.2.2 k hk _ ?_ ?_ <;> unfold GS.xopt <;> split <;> linarith
  · rw [he] at hall
    exfalso; apply h
    have hb : GSBest (goldenLoop bw o _) := loop_best (bw := bw) (o := o) (s := goldenStart bw l u o m)
      ⟨hb0.m1, hb0.m2, hb0.best⟩
    obtain ⟨e1, m1, -, -, k1⟩ := hb.m1
    obtain ⟨e2, m2, -, -, k2⟩ := hb.m2
    exact ⟨by rw [← k1]; exact hall e1 m1, by rw [← k2]; exact hall e2 m2⟩

/-- **C17.** The returned weight has the kernel and the adaptive flag of the supplied one, whatever happens. -/
theorem C17_kernel_kind_kept (bw : BandwidthWeight) (l u : ℝ) (o : Oracle) (m : List (ℝ × ℝ)) (b : BandwidthWeight)
    (h : (optimize bw l u o m).out = .ok b) : b.mKernel = bw.mKernel ∧ b.mAdaptive = bw.mAdaptive := by
  rcases optimize_cases bw l u o m with ⟨-, he⟩ | ⟨-, -, -, -, he⟩ | ⟨-, -, -, -, -, he⟩ | ⟨-, -, -, -, he⟩ <;>
    rw [he] at h
  · have := Res.ok.inj h; subst this; exact ⟨rfl, rfl⟩
  · cases h
  · have := Res.ok.inj h; subst this; exact ⟨rfl, rfl⟩
  · have := Res.ok.inj h; subst this; exact ⟨rfl, rfl⟩

/-- **C17 (failure protocol).** If any call fails to report success the supplied weight is returned unchanged; the search
throws exactly when both starting calls succeed with the value `DBL_MAX`. -/
theorem C17_failure_protocol (bw : BandwidthWeight) (l u : ℝ) (o : Oracle) (m : List (ℝ × ℝ)) :
    ((∃ e ∈ (optimize bw l u o m).evals, e.success = false) → (optimize bw l u o m).out = .ok bw) ∧
    ((∃ er, (optimize bw l u o m).out = .throw er) ↔
      ∃ e1 e2, (optimize bw l u o m).evals = [e1, e2] ∧ e1.success = true ∧ e2.success = true ∧ e1.f = dblMax ∧
        e2.f = dblMax) := by
  have succ : ∀ s : GS, (s.s1 = true ∧ s.s2 = true → ∀ e ∈ s.evals, e.success = true) →
      ((goldenLoop bw o s).s1 = true ∧ (goldenLoop bw o s).s2 = true → ∀ e ∈ (goldenLoop bw o s).evals, e.success = true) := by
    intro s h
    refine (goldenLoop_induct (bw := bw) (o := o)
      (P := fun s => s.s1 = true ∧ s.s2 = true → ∀ e ∈ s.evals, e.success = true) ?_ h).1
    intro s h hc
    have hall := h ⟨hc.1, hc.2.1⟩
    unfold goldenStep
    dsimp only
    split
    · rintro ⟨hs, -⟩ e he
      rcases List.mem_append.1 he with he | he
      · exact hall e he
      · rw [List.mem_singleton] at he; subst he; exact hs
    · rintro ⟨-, hs⟩ e he
      rcases List.mem_append.1 he with he | he
      · exact hall e he
      · rw [List.mem_singleton] at he; subst he; exact hs
  have hinit : ∀ (cr : List (ℝ × ℝ)), let s := { goldenInit bw l u o m with crit := cr }
      (s.s1 = true ∧ s.s2 = true → ∀ e ∈ s.evals, e.success = true) := by
    rintro cr s ⟨a, b⟩ e he
    simp only [s, goldenInit, List.mem_cons, List.not_mem_nil, or_false] at he a b
    rcases he with rfl | rfl
    · exact a
    · exact b
  have hpre : ∀ s : GS, s.evals <+: (goldenLoop bw o s).evals := fun s => evals_prefix s
  rcases optimize_cases bw l u o m with ⟨h, he⟩ | ⟨h1, h2, h3, h4, he⟩ | ⟨h1, h2, hn, h3, h4, he⟩ | ⟨h1, h2, hn, h, he⟩ <;>
    rw [he]
  · refine ⟨fun _ => rfl, ?_⟩
    constructor
    · rintro ⟨er, h⟩; cases h
    · rintro ⟨e1, e2, hev, s1, s2, -, -⟩
      exfalso; apply h
      simp only [goldenInit, List.cons.injEq, and_true] at hev
      simp only [goldenInit]
      rw [← hev.1] at s1; rw [← hev.2] at s2
      exact ⟨s1, s2⟩
  · constructor
    · rintro ⟨e, hm, hf⟩
      have := hinit m ⟨h1, h2⟩ e hm
      rw [this] at hf; cases hf
    · constructor
      · intro _
        exact ⟨_, _, rfl, h1, h2, h3, h4⟩
      · intro _; exact ⟨_, rfl⟩
  · constructor
    · rintro ⟨e, hm, hf⟩
      have := succ _ (hinit _) ⟨h3, h4⟩ e hm
      rw [this] at hf; cases hf
    · constructor
      · rintro ⟨er, h⟩; cases h
      · rintro ⟨e1, e2, hev, -, -, f1, f2⟩
        exfalso; apply hn
        have hp := hpre (goldenStart bw l u o m)
        simp only at hev
        rw [hev] at hp
        have hq := hp.eq_of_length rfl
        simp only [goldenStart, goldenInit, List.cons.injEq, and_true] at hq
        simp only [goldenInit]
        rw [← hq.1] at f1; rw [← hq.2] at f2
        exact ⟨f1, f2⟩
  · refine ⟨fun _ => rfl, ?_⟩
    constructor
    · rintro ⟨er, h⟩; cases h
    · rintro ⟨e1, e2, hev, -, -, f1, f2⟩
      exfalso; apply hn
      have hp := hpre (goldenStart bw l u o m)
      simp only at hev
      rw [hev] at hp
      have hq := hp.eq_of_length rfl
      simp only [goldenStart, goldenInit, List.cons.injEq, and_true] at hq
      simp only [goldenInit]
      rw [← hq.1] at f1; rw [← hq.2] at f2
      exact ⟨f1, f2⟩

/-- **C18.** After a successful first search, the reported list has strictly increasing bandwidths; every entry is the value
of a call made and below `DBL_MAX`; and every bandwidth evaluated to a value below `DBL_MAX` has an entry. This holds for every
iteration order of the hash map. -/
theorem C18_criterion_list (bw : BandwidthWeight) (l u : ℝ) (o : Oracle)
    (hs : ∀ e ∈ (optimize bw l u o []).evals, e.success = true) (items : List (ℝ × ℝ))
    (hit : items.Perm (optimize bw l u o []).crit) (b : BandwidthWeight) (hout : (optimize bw l u o []).out = .ok b) :
    (bandwidthCriterion items).Pairwise (fun p q => p.1 < q.1) ∧
    (∀ p ∈ bandwidthCriterion items, p.2 < dblMax ∧ ∃ e ∈ (optimize bw l u o []).evals, e.x = p.1 ∧ e.f = p.2) ∧
    (∀ e ∈ (optimize bw l u o []).evals, e.f < dblMax → ∃ v, (e.x, v) ∈ bandwidthCriterion items) := by
  have hmap : GSMap (goldenLoop bw o _) := (goldenLoop_induct (bw := bw) (o := o) (P := GSMap) (fun s h _ => h.step)
    (GSMap.start bw l u o)).1
  have hsort : ∀ crit : List (ℝ × ℝ), (crit.map Prod.fst).Nodup → items.Perm crit →
      (bandwidthCriterion items).Pairwise (fun p q => p.1 < q.1) ∧ ∀ p, p ∈ bandwidthCriterion items ↔ p ∈ crit := by
    intro crit hk hp
    have hperm := List.perm_insertionSort (fun a b : ℝ × ℝ => a.1 ≤ b.1) items
    have hsrt := List.pairwise_insertionSort (fun a b : ℝ × ℝ => a.1 ≤ b.1) items
    refine ⟨?_, fun p => by
      unfold bandwidthCriterion; rw [hperm.mem_iff, hp.mem_iff]⟩
    have hnd : ((bandwidthCriterion items).map Prod.fst).Nodup :=
      ((hperm.trans hp).map Prod.fst).nodup_iff.2 hk
    have hnd' : (bandwidthCriterion items).Pairwise (fun p q => p.1 ≠ q.1) := List.pairwise_map.1 hnd
    exact (hsrt.and hnd').imp (fun h => lt_of_le_of_ne h.1 h.2)
  rcases optimize_cases bw l u o [] with ⟨h, he⟩ | ⟨h1, h2, h3, h4, he⟩ | ⟨h1, h2, hn, h3, h4, he⟩ | ⟨h1, h2, hn, h, he⟩
  · rw [he] at hs
    exfalso; apply h
    have hb0 := GSBest.init bw l u o []
    obtain ⟨e1, m1, -, -, k1⟩ := hb0.m1
    obtain ⟨e2, m2, -, -, k2⟩ := hb0.m2
    exact ⟨by rw [← k1]; exact hs e1 m1, by rw [← k2]; exact hs e2 m2⟩
  · rw [he] at hout; cases hout
  all_goals
    rw [he] at hit ⊢
    obtain ⟨g1, g2⟩ := hsort _ hmap.keys hit
    refine ⟨g1, fun p hp => hmap.mem p ((g2 p).1 hp), fun e hm hf => ?_⟩
    obtain ⟨v, hv⟩ := hmap.complete e hm hf
    exact ⟨v, (g2 _).2 hv⟩

/-- A concrete search: criterion `(x - 3)²` on `[0, 10]` with a fixed bandwidth makes only successful calls. -/
example : ∀ e ∈ (optimize ⟨1, false, .Bisquare⟩ 0 10 (fun _ b => (true, (b.mBandwidth - 3) ^ 2)) []).evals,
    e.success = true := by
  intro e he
  have hdet : Det (fun x => (x - 3) ^ 2) (fun _ b => (true, (b.mBandwidth - 3) ^ 2)) := fun _ _ => rfl
  have hd0 := GSDet.init hdet ⟨1, false, .Bisquare⟩ 0 10 []
  have key := (goldenLoop_induct (bw := ⟨1, false, .Bisquare⟩) (P := GSDet (fun x => (x - 3) ^ 2))
    (fun s h _ => h.step hdet)
    (s := goldenStart ⟨1, false, .Bisquare⟩ 0 10 (fun _ b => (true, (b.mBandwidth - 3) ^ 2)) [])
    ⟨hd0.a1, hd0.a2, hd0.b1, hd0.b2, hd0.ev⟩).1
  rcases optimize_cases ⟨1, false, .Bisquare⟩ 0 10 (fun _ b => (true, (b.mBandwidth - 3) ^ 2)) [] with
    ⟨-, h⟩ | ⟨-, -, -, -, h⟩ | ⟨-, -, -, -, -, h⟩ | ⟨-, -, -, -, h⟩ <;> rw [h] at he
  · exact (hd0.ev e he).2
  · exact (hd0.ev e he).2
  · exact (key.ev e he).2
  · exact (key.ev e he).2

end Verif.Props

import Verif.Props.GWRObject
import Verif.Props.MultiscaleModes

/-! Runs in different modes report the same (C28, C135). -/

namespace Verif.Props
open Verif Verif.Model Verif.Spec Matrix Classical

variable {n k : ℕ}

/-! ## Searches -/

theorem golden_same {b : BandwidthWeight} {o o' : Oracle} {P : BandwidthWeight → Prop} (ho : ∀ j w, P w → o' j w = o j w) (s : GS)
    (h : ∀ e ∈ (goldenLoop b o s).evals, P { b with mBandwidth := e.x }) : goldenLoop b o' s = goldenLoop b o s := by
  have grow : ∀ s : GS, ∀ e ∈ s.evals, e ∈ (goldenLoop b o s).evals := fun s =>
    (goldenLoop_induct (bw := b) (o := o) (P := fun t => ∀ e ∈ s.evals, e ∈ t.evals)
      (fun t ht _ e he => by unfold goldenStep; dsimp only; split <;> exact List.mem_append_left _ (ht e he)) (fun e he => he)).1
  fun_induction goldenLoop b o s with
  | case1 s hc ih =>
    have hstep : goldenStep b o' s = goldenStep b o s := by
      have hin := grow (goldenStep b o s)
      by_cases hf : s.f1 < s.f2
      · simp only [goldenStep, if_pos hf] at hin h ⊢
        have := ho s.evals.length _ (h _ (hin _ (List.mem_append_right _ (List.mem_singleton_self _))))
        simp only [this]
      · simp only [goldenStep, if_neg hf] at hin h ⊢
        have := ho s.evals.length _ (h _ (hin _ (List.mem_append_right _ (List.mem_singleton_self _))))
        simp only [this]
    rw [goldenLoop, if_pos hc, hstep]
    exact ih h
  | case2 s hc => rw [goldenLoop, if_neg hc]

/-- A search does the same for any criterion that agrees on the bandwidths it tried. -/
theorem optimize_same {b : BandwidthWeight} {l u : ℝ} {o o' : Oracle} {m : List (ℝ × ℝ)} {P : BandwidthWeight → Prop}
    (ho : ∀ j w, P w → o' j w = o j w) (h : ∀ e ∈ (optimize b l u o m).evals, P { b with mBandwidth := e.x }) :
    optimize b l u o' m = optimize b l u o m := by
  have grow : ∀ s : GS, ∀ e ∈ s.evals, e ∈ (goldenLoop b o s).evals := fun s =>
    (goldenLoop_induct (bw := b) (o := o) (P := fun t => ∀ e ∈ s.evals, e ∈ t.evals)
      (fun t ht _ e he => by unfold goldenStep; dsimp only; split <;> exact List.mem_append_left _ (ht e he)) (fun e he => he)).1
  have h0 : ∀ e ∈ (goldenInit b l u o m).evals, P { b with mBandwidth := e.x } := by
    rcases optimize_cases b l u o m with ⟨-, he⟩ | ⟨-, -, -, -, he⟩ | ⟨-, -, -, -, -, he⟩ | ⟨-, -, -, -, he⟩ <;> rw [he] at h
    · exact h
    · exact h
    · exact fun e he => h e (grow (goldenStart b l u o m) e he)
    · exact fun e he => h e (grow (goldenStart b l u o m) e he)
  have hinit : goldenInit b l u o' m = goldenInit b l u o m := by
    have a1 := ho 0 _ (h0 ⟨_, _, _⟩ (List.mem_cons_self ..))
    have a2 := ho 1 _ (h0 ⟨_, _, _⟩ (List.mem_cons_of_mem _ (List.mem_cons_self ..)))
    unfold goldenInit
    simp only [a1, a2]
  unfold optimize at h ⊢
  simp only [hinit] at h ⊢
  by_cases c1 : ¬ ((goldenInit b l u o m).s1 = true ∧ (goldenInit b l u o m).s2 = true)
  · rw [if_pos c1, if_pos c1]
  · rw [if_neg c1] at h ⊢
    rw [if_neg c1]
    by_cases c2 : (goldenInit b l u o m).f1 = dblMax ∧ (goldenInit b l u o m).f2 = dblMax
    · rw [if_pos c2, if_pos c2]
    · rw [if_neg c2] at h ⊢
      rw [if_neg c2]
      have : ∀ e ∈ (goldenLoop b o (goldenStart b l u o m)).evals, P { b with mBandwidth := e.x } := by
        split at h <;> exact h
      have hg := golden_same ho _ this
      unfold goldenStart at hg
      rw [hg]

theorem criterion_same (c : Crit) {d' : CRSDistance} {x : Matrix (Fin n) (Fin k) ℝ} {y : Fin n → ℝ} {b : BandwidthWeight} {ex : Exec n}
    (hex : ex.Valid) (h : gwrCriterionEx c d' x y b .serial ≠ dblMax) : gwrCriterionEx c d' x y b ex = gwrCriterionEx c d' x y b .serial := by
  cases ex with
  | serial => rfl
  | omp evs =>
    have hs : Schedule (workRange n 0 n) evs := by rw [workRange_all]; exact hex
    simp only [gwrCriterionEx] at h ⊢
    unfold gwrCriterion at h ⊢
    split at h
    swap
    · exact absurd rfl h
    rename_i W hW
    rw [gwrCriterionOmp_rows c hW]
    obtain ⟨q1, q2⟩ := C28_criteria_equal_partial x y W evs hs false
    cases c with
    | CV =>
      refine q1 ?_
      cases hr : fitCoreCVSerial x y W 0 n NoStop with
      | ok r => exact ⟨r, rfl⟩
      | _ => exact absurd (by simp only [criterionCV]; rw [show (fun _ => false) = NoStop from rfl, hr]) h
    | AIC =>
      refine q2 ?_
      cases hr : fitCoreSHatSerial x y W 0 n NoStop with
      | ok r => exact ⟨r, rfl⟩
      | _ => exact absurd (by simp only [criterionAIC]; rw [show (fun _ => false) = NoStop from rfl, hr]) h

/-- **C28 (searches).** If the serial search for the bandwidth of a basic regression meets no bandwidth that it scores `DBL_MAX`, every multithreaded
search tries the same bandwidths, sees the same values and ends with the same one. -/
theorem C28_same_search (c : Crit) (d' : CRSDistance) (b0 : BandwidthWeight) (lower upper : Option ℝ) (x : Matrix (Fin n) (Fin k) ℝ) (y : Fin n → ℝ)
    (r : SearchResult) (h : gwrSearchEx c (fun _ => .serial) d' b0 lower upper x y = .ok r) (hf : ∀ e ∈ r.evals, e.f ≠ dblMax)
    (sched : ℕ → Exec n) (hs : ∀ j, (sched j).Valid) : gwrSearchEx c sched d' b0 lower upper x y = .ok r := by
  unfold gwrSearchEx at h ⊢
  obtain ⟨u, hu, h⟩ := Res.bind_eq_ok'.1 h
  cases Res.ok.inj h
  rw [hu]
  simp only [Res.bind]
  congr 1
  refine optimize_same (P := fun b => gwrCriterionEx c d' x y b .serial ≠ dblMax) (fun j w hw => ?_) fun e he => ?_
  · rw [criterion_same c (hs j) hw]
  · obtain ⟨j, hj⟩ := evals_oracle _ _ _ _ _ e he
    have := (Prod.mk.inj hj).2
    rw [this]
    exact hf e he

/-! ## Fits -/

theorem core_serial_of {x : Matrix (Fin n) (Fin k) ℝ} {y : Fin n → ℝ} {W : Fin n → Fin n → ℝ} {sS sC : Bool} {ex : Exec n} (hex : ex.Valid)
    {a : FitAcc n k} (h : gwrCoreEx x y W sS sC ex = .ok a) :
    ∃ b, fitCoreSerial x y W 0 n sS sC NoStop = .ok (b, false) ∧ a.betas = b.betas ∧ a.se = b.se ∧ a.shat = b.shat ∧ a.qdiag = b.qdiag ∧
      (sS = true → a.s = b.s) ∧ (sC = true → a.c = b.c) := by
  cases ex with
  | serial =>
    obtain ⟨⟨p, t⟩, hp, ha⟩ := Res.bind_eq_ok'.1 (show (fitCoreSerial x y W 0 n sS sC fun _ => false).bind (fun p => .ok p.1) = .ok a from h)
    cases Res.ok.inj ha
    have ht : t = false := serialFor_nostop _ _ _ hp
    subst ht
    exact ⟨p, hp, rfl, rfl, rfl, rfl, fun _ => rfl, fun _ => rfl⟩
  | omp evs =>
    obtain ⟨p, hp, ha⟩ := Res.bind_eq_ok'.1 (show (fitCoreOmp x y W 0 sS sC (fun _ => false) evs).bind (fun p => .ok p.1) = .ok a from h)
    cases Res.ok.inj ha
    have hs : Schedule (workRange n 0 n) evs := by rw [workRange_all]; exact hex
    obtain ⟨q1, q2⟩ := C27_fit_parallel_eq_serial x y W 0 n sS sC evs hs
    by_cases hall : ∀ i ∈ workRange n 0 n, ∃ r, localFit x y (W i) (x i) = .ok r
    · have hr : ∀ i ∈ workRange n 0 n, localFit x y (W i) (x i) = .ok (fitAt x y W i) := fun i hi => by
        obtain ⟨r, hr⟩ := hall i hi
        exact localFit_fitAt (localFit_eq_ok.1 hr).1
      have e1 : fitCoreSerial x y W 0 n sS sC NoStop = _ := serialFor_ok (fitAt x y W) _ 0 _ (fun _ _ => rfl) hr
      obtain ⟨a', ha', b⟩ := q1 _ e1
      cases Res.ok.inj (hp.symm.trans ha')
      exact ⟨_, e1, b⟩
    · exfalso
      push Not at hall
      obtain ⟨i, him, hi⟩ := hall
      have hf := omp_fail (g := fun i => localFit x y (W i) (x i)) (upd := fitUpdOmp 0 sS sC) (stop := NoStop)
        (fun _ => rfl) FitAccOmp.zero (nodup_workRange n 0 n) hs i him hi
      simp only [fitCoreOmp] at hp
      simp [hf] at hp

theorem core_of_serial {x : Matrix (Fin n) (Fin k) ℝ} {y : Fin n → ℝ} {W : Fin n → Fin n → ℝ} {sS sC : Bool} {ex : Exec n} (hex : ex.Valid)
    {b : FitAcc n k} (h : fitCoreSerial x y W 0 n sS sC NoStop = .ok (b, false)) :
    ∃ a, gwrCoreEx x y W sS sC ex = .ok a ∧ a.betas = b.betas ∧ a.se = b.se ∧ a.shat = b.shat ∧ a.qdiag = b.qdiag ∧
      (sS = true → a.s = b.s) ∧ (sC = true → a.c = b.c) := by
  cases ex with
  | serial =>
    refine ⟨b, ?_, rfl, rfl, rfl, rfl, fun _ => rfl, fun _ => rfl⟩
    show (fitCoreSerial x y W 0 n sS sC NoStop).bind (fun p => .ok p.1) = .ok b
    rw [h]; rfl
  | omp evs =>
    have hs : Schedule (workRange n 0 n) evs := by rw [workRange_all]; exact hex
    obtain ⟨a, ha, q⟩ := (C27_fit_parallel_eq_serial x y W 0 n sS sC evs hs).1 _ h
    refine ⟨a, ?_, q⟩
    show (fitCoreOmp x y W 0 sS sC NoStop evs).bind (fun p => .ok p.1) = .ok a
    rw [ha]; rfl

/-- The same report, up to hat rows and coefficient matrices that were not asked for. -/
structure SameReport (sS sC : Bool) (g g' : GWRReport n k) : Prop where
  weight : g'.weight = g.weight
  betas : g'.betas = g.betas
  diagnostic : g'.diagnostic = g.diagnostic
  se : g'.se = g.se
  shat : g'.shat = g.shat
  qdiag : g'.qdiag = g.qdiag
  hat : sS = true → g'.s = g.s
  coef : sC = true → g'.c = g.c

theorem finish_same {x : Matrix (Fin n) (Fin k) ℝ} {y : Fin n → ℝ} {ex ex' : Exec n} (hex : ex.Valid) (hex' : ex'.Valid) {d' : CRSDistance}
    {b : BandwidthWeight} {sS sC : Bool} {g : GWRReport n k} (h : gwrFinish ex d' b x y sS sC = .ok g) :
    ∃ g', gwrFinish ex' d' b x y sS sC = .ok g' ∧ SameReport sS sC g g' := by
  unfold gwrFinish at h ⊢
  obtain ⟨W, hW, h⟩ := Res.bind_eq_ok'.1 h
  have hW' : weightRows d' b n n = .ok W := by
    cases ex <;> cases hw : weightRows d' b n n <;> rw [hw] at hW <;> simp_all [summaryEscape]
  obtain ⟨a, ha, h⟩ := Res.bind_eq_ok'.1 h
  cases Res.ok.inj h
  obtain ⟨a0, h0, e1, e2, e3, e4, e5, e6⟩ := core_serial_of hex ha
  obtain ⟨a', ha', f1, f2, f3, f4, f5, f6⟩ := core_of_serial hex' h0
  have hs : summaryEscape ex' (.ok W) = .ok W := by cases ex' <;> rfl
  rw [hW', hs]
  simp only [Res.bind, ha']
  have g1 := f1.trans e1.symm
  have g2 := f2.trans e2.symm
  have g3 := f3.trans e3.symm
  refine ⟨_, rfl, rfl, g1, by simp only [g1, g3], ?_, g3, f4.trans e4.symm, fun t => (f5 t).trans (e5 t).symm, fun t => (f6 t).trans (e6 t).symm⟩
  simp only
  unfold betasSE
  rw [g1, g2, g3]

/-- **C28 (fits).** If the serial fit with automatic bandwidth selection completes and its search meets no bandwidth that it scores `DBL_MAX`, every
multithreaded fit completes with the same search and the same report. -/
theorem C28_same_fit (c : Crit) (d : CRSDistance) (b0 : BandwidthWeight) (lower upper : Option ℝ) (coords : DynMat) (x : Matrix (Fin n) (Fin k) ℝ)
    (y : Fin n → ℝ) (sS sC : Bool) (r : SearchResult) (g : GWRReport n k)
    (h : gwrAutoRun c (fun _ => .serial) .serial d b0 lower upper coords x y sS sC = .ok (r, g)) (hf : ∀ e ∈ r.evals, e.f ≠ dblMax)
    (sched : ℕ → Exec n) (hs : ∀ j, (sched j).Valid) (ex : Exec n) (hex : ex.Valid) :
    ∃ g', gwrAutoRun c sched ex d b0 lower upper coords x y sS sC = .ok (r, g') ∧ SameReport sS sC g g' := by
  unfold gwrAutoRun at h ⊢
  obtain ⟨d', hd, h⟩ := Res.bind_eq_ok'.1 h
  obtain ⟨r', hr, h⟩ := Res.bind_eq_ok'.1 h
  obtain ⟨b, ho, h⟩ := Res.bind_eq_ok'.1 h
  obtain ⟨g1, hg, h⟩ := Res.bind_eq_ok'.1 h
  simp only [Res.ok.injEq, Prod.mk.injEq] at h
  obtain ⟨rfl, rfl⟩ := h
  obtain ⟨g', hg', hsame⟩ := finish_same (ex := .serial) trivial hex hg
  refine ⟨g', ?_, hsame⟩
  rw [hd]
  simp only [Res.bind, C28_same_search c d' b0 lower upper x y r' hr hf sched hs, ho, hg']

/-! ## Multiscale regression -/

/-- The same state, up to hat matrices that were not asked for. -/
def SameState (hat : Bool) (s s' : BfState n k) : Prop :=
  ∃ a b, s' = { s with s0 := a, sArr := b } ∧ (hat = true → a = s.s0 ∧ b = s.sArr)

theorem bfSelect_hats (c : MgwrCfg n k) (i : Fin k) (bw : BandwidthWeight) (s : BfState n k) (a : Matrix (Fin n) (Fin n) ℝ)
    (b : Fin k → Matrix (Fin n) (Fin n) ℝ) :
    bfSelect c i bw { s with s0 := a, sArr := b } = { bfSelect c i bw s with s0 := a, sArr := b } := by
  unfold bfSelect
  dsimp only
  split
  · rfl
  · split <;> rfl

theorem bfVarIn_same {u : MgwrSetup n k} {hat : Bool} {md md' : MgwrModes n k} (hv : md.Valid) (hv' : md'.Valid) (hse : md'.search = md.search)
    {x : Matrix (Fin n) (Fin k) ℝ} {d' : Fin k → CRSDistance} {range : Fin k → ℝ × ℝ} {it : ℕ} {i : Fin k} {s s' t : BfState n k}
    (hss : SameState hat s s') (h : bfVarIn u hat md x d' range it i s = .ok t) :
    ∃ t', bfVarIn u hat md' x d' range it i s' = .ok t' ∧ SameState hat t t' := by
  obtain ⟨a, b, rfl, hab⟩ := hss
  unfold bfVarIn at h ⊢
  dsimp only at h ⊢
  have hp : partialResid (u.cfgIn hat x) i { s with s0 := a, sArr := b } = partialResid (u.cfgIn hat x) i s := rfl
  rw [hp, hse]
  obtain ⟨s1, h1, h⟩ := Res.bind_eq_ok'.1 h
  obtain ⟨r, h2, h⟩ := Res.bind_eq_ok'.1 h
  cases Res.ok.inj h
  have h1' : (if s.init i = .Specified then Res.ok { s with s0 := a, sArr := b }
      else (u.searchIn x d' range i (partialResid (u.cfgIn hat x) i s) (s.bw i) (md.search it i)).out.bind fun bw =>
        .ok (bfSelect (u.cfgIn hat x) i bw { s with s0 := a, sArr := b })) = .ok { s1 with s0 := a, sArr := b } ∧ s1.s0 = s.s0 ∧ s1.sArr = s.sArr := by
    split at h1
    · rename_i hc
      cases Res.ok.inj h1
      exact ⟨by rw [if_pos hc], rfl, rfl⟩
    · rename_i hc
      obtain ⟨bw, hb, h1⟩ := Res.bind_eq_ok'.1 h1
      cases Res.ok.inj h1
      refine ⟨?_, (bfSelect_fields _ i bw s).2.2.1, (bfSelect_fields _ i bw s).2.2.2⟩
      rw [if_neg hc, hb]
      simp only [Res.bind, bfSelect_hats]
  obtain ⟨h1', e1, e2⟩ := h1'
  have h2' : fitVarIn (md'.fitVar it i) (d' i) (s1.bw i) (colOf x i) (partialResid (u.cfgIn hat x) i s) = .ok r := by
    obtain ⟨W, hW, hc⟩ := fitVarIn_ok (hv.2.2.2.2 it i) h2
    unfold fitVarIn
    rw [hW]
    have hs : summaryEscape (md'.fitVar it i) (.ok W) = .ok W := by cases md'.fitVar it i <;> rfl
    rw [hs]
    simp only [Res.bind]
    rw [fitVarCoreIn_eq _ _ _ (hv'.2.2.2.2 it i), hc]
  rw [h1']
  simp only [Res.bind, h2']
  refine ⟨_, rfl, ?_⟩
  cases hat with
  | false => exact ⟨a, b, rfl, fun hh => absurd hh (by simp)⟩
  | true =>
    obtain ⟨rfl, rfl⟩ := hab rfl
    rw [← e1, ← e2]
    exact ⟨_, _, rfl, fun _ => ⟨rfl, rfl⟩⟩

theorem bfVarsIn_same {u : MgwrSetup n k} {hat : Bool} {md md' : MgwrModes n k} (hv : md.Valid) (hv' : md'.Valid) (hse : md'.search = md.search)
    {x : Matrix (Fin n) (Fin k) ℝ} {d' : Fin k → CRSDistance} {range : Fin k → ℝ × ℝ} {it : ℕ} : ∀ (is : List (Fin k)) (s s' t : BfState n k),
    SameState hat s s' → bfVarsIn u hat md x d' range it is s = .ok t →
    ∃ t', bfVarsIn u hat md' x d' range it is s' = .ok t' ∧ SameState hat t t'
  | [], s, s', t, hss, h => by cases Res.ok.inj h; exact ⟨s', rfl, hss⟩
  | i :: is, s, s', t, hss, h => by
    rw [bfVarsIn] at h ⊢
    obtain ⟨s1, h1, h⟩ := Res.bind_eq_ok'.1 h
    obtain ⟨s1', h1', hss1⟩ := bfVarIn_same hv hv' hse hss h1
    rw [h1']
    exact bfVarsIn_same hv hv' hse is s1 s1' t hss1 h

theorem bfLoopIn_same {u : MgwrSetup n k} {hat : Bool} {md md' : MgwrModes n k} (hv : md.Valid) (hv' : md'.Valid) (hse : md'.search = md.search)
    {x : Matrix (Fin n) (Fin k) ℝ} {d' : Fin k → CRSDistance} {range : Fin k → ℝ × ℝ} :
    ∀ (m it : ℕ) (go : Bool) (r0 : ℝ) (s s' : BfState n k) (t : BfState n k × ℝ),
    SameState hat s s' → bfLoopIn u hat md x d' range m it go r0 s = .ok t →
    ∃ t', bfLoopIn u hat md' x d' range m it go r0 s' = .ok t' ∧ SameState hat t.1 t'.1 ∧ t'.2 = t.2
  | 0, it, go, r0, s, s', t, hss, h => by rw [bfLoopIn] at h ⊢; cases Res.ok.inj h; exact ⟨_, rfl, hss, rfl⟩
  | m + 1, it, go, r0, s, s', t, hss, h => by
    rw [bfLoopIn] at h ⊢
    split at h
    · rename_i hg; cases Res.ok.inj h; exact ⟨(s', r0), by rw [if_pos hg], hss, rfl⟩
    · rename_i hg
      rw [if_neg hg]
      obtain ⟨s1, h1, h⟩ := Res.bind_eq_ok'.1 h
      obtain ⟨s1', h1', hss1⟩ := bfVarsIn_same hv hv' hse _ _ _ _ hss h1
      rw [h1']
      have hb : s1'.betas = s1.betas := by obtain ⟨a, b, rfl, -⟩ := hss1; rfl
      simp only [Res.bind, hb]
      exact bfLoopIn_same hv hv' hse m _ _ _ s1 s1' t hss1 h

/-- **C135 (modes).** Two multiscale runs whose searches run in the same way report the same, whether and however their fits are multithreaded: the same
coefficients, bandwidths and diagnostics. -/
theorem C135_same_report (u : MgwrSetup n k) (hat : Bool) (md md' : MgwrModes n k) (hv : md.Valid) (hv' : md'.Valid)
    (hsearch : md'.search0 = md.search0 ∧ md'.start = md.start ∧ md'.search = md.search) (o : MgwrReport n k) (h : mgwrRunIn u hat md = .ok o) :
    ∃ o', mgwrRunIn u hat md' = .ok o' ∧ o'.out = o.out ∧ o'.search0 = o.search0 ∧ SameReport hat hat o.fit0 o'.fit0 := by
  obtain ⟨hs0, hst, hse⟩ := hsearch
  unfold mgwrRunIn at h ⊢
  dsimp only at h ⊢
  obtain ⟨c, hc, h⟩ := Res.bind_eq_ok'.1 h
  obtain ⟨⟨r, g⟩, hg, h⟩ := Res.bind_eq_ok'.1 h
  obtain ⟨d', hd, h⟩ := Res.bind_eq_ok'.1 h
  obtain ⟨range, hr, h⟩ := Res.bind_eq_ok'.1 h
  obtain ⟨bw, hb, h⟩ := Res.bind_eq_ok'.1 h
  obtain ⟨t, ht, h⟩ := Res.bind_eq_ok'.1 h
  cases Res.ok.inj h
  generalize centrePredictors u.hasIntercept u.centred u.x = x at *
  obtain ⟨g', hg', hsr⟩ : ∃ g', gwrAutoRun c md'.search0 md'.fit0 u.dist0 u.bw0 u.lower u.upper u.coords x u.y (hat || decide (n < 8192)) hat =
      .ok (r, g') ∧ SameReport (hat || decide (n < 8192)) hat g g' := by
    rw [hs0]
    unfold gwrAutoRun at hg ⊢
    obtain ⟨dd, hdd, hg⟩ := Res.bind_eq_ok'.1 hg
    obtain ⟨r', hr', hg⟩ := Res.bind_eq_ok'.1 hg
    obtain ⟨b, ho, hg⟩ := Res.bind_eq_ok'.1 hg
    obtain ⟨g1, hg1, hg⟩ := Res.bind_eq_ok'.1 hg
    simp only [Res.ok.injEq, Prod.mk.injEq] at hg
    obtain ⟨rfl, rfl⟩ := hg
    obtain ⟨g', hg', hsame⟩ := finish_same hv.2.1 hv'.2.1 hg1
    refine ⟨g', ?_, hsame⟩
    rw [hdd]
    simp only [Res.bind, hr', ho, hg']
  have hinit : SameState hat (bfInitIn u x g bw) (bfInitIn u x g' bw) := by
    refine ⟨Matrix.of fun j => g'.s j.val, fun i => Matrix.of fun j l => x j i * g'.c j.val i l, ?_, fun hh => ?_⟩
    · simp only [bfInitIn, hsr.betas]
    · subst hh
      simp only [bfInitIn, hsr.hat rfl, hsr.coef rfl, and_self]
  unfold backfittingIn at ht
  obtain ⟨t', ht', hss, hrss⟩ := bfLoopIn_same hv hv' hse _ _ _ _ _ _ _ hinit ht
  have ht'' : backfittingIn u hat md' x d' range (bfInitIn u x g' bw) = .ok t' := by
    unfold backfittingIn
    rw [← ht']
    simp only [bfInitIn, hsr.betas]
  rw [hc, Res.bind, hg', Res.bind, hd, Res.bind, hr, Res.bind, hst, hb, Res.bind, ht'', Res.bind]
  obtain ⟨a, b, he, hab⟩ := hss
  refine ⟨_, rfl, ?_, rfl, hsr.weight, hsr.betas, hsr.diagnostic, hsr.se, hsr.shat, hsr.qdiag, fun hh => hsr.hat (by rw [hh]; rfl), hsr.coef⟩
  simp only [he, hrss, hsr.se]
  cases hat with
  | false => rfl
  | true => obtain ⟨rfl, rfl⟩ := hab rfl; rfl

end Verif.Props

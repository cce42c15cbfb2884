import Verif.Props.GWRBasic

/-! # C27–C29: parallel loops and cancellation -/

namespace Verif.Props
open Verif Verif.Model Verif.Spec Matrix Classical

variable {n k m T : ℕ}

/-- **C27 (coefficients at locations).** A parallel prediction returns exactly what the serial one returns, for every number of
threads and every schedule, and throws exactly when the serial one throws. -/
theorem C27_predict_parallel_eq_serial (x : Matrix (Fin n) (Fin k) ℝ) (y : Fin n → ℝ) (W : Fin m → Fin n → ℝ)
    (evs : List (OmpEv (Fin m) (Fin T))) (hs : Schedule (List.finRange m) evs) :
    (∀ b, predictSerial x y W NoStop = .ok (b, false) → predictOmp x y W NoStop evs = .ok (b, false)) ∧
    ((∃ e, predictSerial x y W NoStop = .throw e) ↔ ∃ e, predictOmp x y W NoStop evs = .throw e) := by
  by_cases hall : ∀ i, ∃ r, localBeta x y (W i) = .ok r
  · choose r hr using hall
    have e1 : predictSerial x y W NoStop = _ := serialFor_ok r _ 0 _ (fun _ _ => rfl) (fun i _ => hr i)
    obtain ⟨h1, h2, h3⟩ := omp_ok (g := fun i => localBeta x y (W i)) (upd := fun (_ : Fin T) => setRow) (stop := NoStop)
      (fun _ => rfl) r (0 : Matrix (Fin m) (Fin k) ℝ) hs (fun i _ => hr i)
    have e2 : predictOmp x y W NoStop evs = .ok ((List.finRange m).foldl (fun s i => setRow i (r i) s) 0, false) := by
      simp only [predictOmp, h1, h2, if_true]
      congr 2
      refine Eq.trans h3 ?_
      funext i
      have hnd : ((finishes evs).map Prod.snd).Nodup := hs.finishes.nodup_iff.2 (List.nodup_finRange m)
      have hm : i ∈ (finishes evs).map Prod.snd := hs.finishes.mem_iff.2 (List.mem_finRange i)
      obtain ⟨ti, hti, hi⟩ := List.mem_map.1 hm
      have a1 := foldl_update (Prod.snd : Fin T × Fin m → Fin m) (fun ti => r ti.2) (finishes evs) (0 : Fin m → Fin k → ℝ) hnd
        ti hti
      have a2 := foldl_update (id : Fin m → Fin m) r (List.finRange m) (0 : Fin m → Fin k → ℝ)
        (by rw [List.map_id]; exact List.nodup_finRange m) i (List.mem_finRange i)
      rw [hi] at a1
      exact a1.trans a2.symm
    refine ⟨fun b hb => ?_, ?_⟩
    · rw [e2, ← e1, hb]
    · rw [e1, e2]
  · push Not at hall
    obtain ⟨i, hi⟩ := hall
    have hf := omp_fail (g := fun i => localBeta x y (W i)) (upd := fun (_ : Fin T) => setRow) (stop := NoStop)
      (fun _ => rfl) (0 : Matrix (Fin m) (Fin k) ℝ) (List.nodup_finRange m) hs i (List.mem_finRange i) hi
    have hf' : predictOmp x y W NoStop evs = .throw .runtime := by simp only [predictOmp, hf, Bool.false_eq_true, if_false]
    have hser : predictSerial x y W NoStop = .throw .singular :=
      serialFor_fail (fun i => localBeta_cases x y (W i)) _ 0 _ (fun _ _ => rfl) ⟨i, List.mem_finRange i, by
        rcases localBeta_cases x y (W i) with ⟨r, hr⟩ | hr
        · exact absurd hr (hi r)
        · exact hr⟩
    rw [hf', hser]
    simp

theorem fold_fitUpdOmp (first : ℕ) (sS sC : Bool) (r : Fin n → LocalFit n k) : ∀ (l : List (Fin T × Fin n)) (a : FitAccOmp n k T),
    (l.foldl (fun a ti => fitUpdOmp first sS sC ti.1 ti.2 (r ti.2) a) a).betas =
      l.foldl (fun f ti => Function.update f ti.2 (r ti.2).beta) a.betas ∧
    (l.foldl (fun a ti => fitUpdOmp first sS sC ti.1 ti.2 (r ti.2) a) a).se =
      l.foldl (fun f ti => Function.update f ti.2 (seRow (r ti.2))) a.se ∧
    (l.foldl (fun a ti => fitUpdOmp first sS sC ti.1 ti.2 (r ti.2) a) a).shatAll =
      l.foldl (fun a ti => Function.update a ti.1 (a ti.1 + shatRow ti.2 (r ti.2))) a.shatAll ∧
    (l.foldl (fun a ti => fitUpdOmp first sS sC ti.1 ti.2 (r ti.2) a) a).qdiagAll =
      l.foldl (fun a ti => Function.update a ti.1 (a ti.1 + qRow ti.2 (r ti.2))) a.qdiagAll ∧
    (l.foldl (fun a ti => fitUpdOmp first sS sC ti.1 ti.2 (r ti.2) a) a).s =
      l.foldl (fun f ti => Function.update f (if sS then ti.2.val - first else 0) (r ti.2).si) a.s ∧
    (l.foldl (fun a ti => fitUpdOmp first sS sC ti.1 ti.2 (r ti.2) a) a).c =
      l.foldl (fun f ti => Function.update f (if sC then ti.2.val - first else 0) (r ti.2).ci) a.c
  | [], a => ⟨rfl, rfl, rfl, rfl, rfl, rfl⟩
  | ti :: l, a => by
    obtain ⟨h1, h2, h3, h4, h5, h6⟩ := fold_fitUpdOmp first sS sC r l (fitUpdOmp first sS sC ti.1 ti.2 (r ti.2) a)
    simp only [List.foldl_cons]
    exact ⟨h1, h2, h3, h4, h5, h6⟩

theorem slotfold {κ α ι : Type} [DecidableEq κ] (slot : ι → κ) (v : ι → α) (iters : List ι) (l : List (Fin T × ι)) (f : κ → α)
    (hp : (l.map Prod.snd).Perm iters) (hnd : (iters.map slot).Nodup) :
    (∀ i ∈ iters, (l.foldl (fun f ti => Function.update f (slot ti.2) (v ti.2)) f) (slot i) = v i) ∧
    (∀ q, q ∉ iters.map slot → (l.foldl (fun f ti => Function.update f (slot ti.2) (v ti.2)) f) q = f q) := by
  have hnd' : (l.map (fun ti => slot ti.2)).Nodup := by
    have : (l.map (fun ti => slot ti.2)) = (l.map Prod.snd).map slot := by rw [List.map_map]; rfl
    rw [this]; exact (hp.map slot).nodup_iff.2 hnd
  constructor
  · intro i hi
    obtain ⟨ti, hti, rfl⟩ := List.mem_map.1 (hp.mem_iff.2 hi)
    exact foldl_update (fun ti : Fin T × ι => slot ti.2) (fun ti => v ti.2) l f hnd' ti hti
  · intro q hq
    refine foldl_update_other (fun ti : Fin T × ι => slot ti.2) (fun ti => v ti.2) l f q ?_
    intro h
    obtain ⟨ti, hti, rfl⟩ := List.mem_map.1 h
    exact hq (List.mem_map.2 ⟨ti.2, hp.mem_iff.1 (List.mem_map.2 ⟨ti, hti, rfl⟩), rfl⟩)

/-- **C27 (fit).** For every number of threads and every schedule the parallel fit returns what the serial fit returns:
coefficients, standard error terms, traces, Q diagonal, and all stored rows of S and slices of C. It throws exactly when the
serial fit throws. -/
theorem C27_fit_parallel_eq_serial (x : Matrix (Fin n) (Fin k) ℝ) (y : Fin n → ℝ) (W : Fin n → Fin n → ℝ) (f s : ℕ)
    (sS sC : Bool) (evs : List (OmpEv (Fin n) (Fin T))) (hs : Schedule (workRange n f s) evs) :
    (∀ a, fitCoreSerial x y W f s sS sC NoStop = .ok (a, false) → ∃ a', fitCoreOmp x y W f sS sC NoStop evs = .ok (a', false) ∧
      a'.betas = a.betas ∧ a'.se = a.se ∧ a'.shat = a.shat ∧ a'.qdiag = a.qdiag ∧
      (sS = true → a'.s = a.s) ∧ (sC = true → a'.c = a.c)) ∧
    ((∃ e, fitCoreSerial x y W f s sS sC NoStop = .throw e) ↔ ∃ e, fitCoreOmp x y W f sS sC NoStop evs = .throw e) := by
  by_cases hall : ∀ i ∈ workRange n f s, ∃ r, localFit x y (W i) (x i) = .ok r
  · have hr : ∀ i ∈ workRange n f s, localFit x y (W i) (x i) = .ok (fitAt x y W i) := fun i hi => by
      obtain ⟨r, hr⟩ := hall i hi
      exact localFit_fitAt (localFit_eq_ok.1 hr).1
    have e1 : fitCoreSerial x y W f s sS sC NoStop = _ := serialFor_ok (fitAt x y W) _ 0 _ (fun _ _ => rfl) hr
    obtain ⟨h1, h2, h3⟩ := omp_ok (upd := fitUpdOmp (T := T) f sS sC) (stop := NoStop)
      (fun _ => rfl) (fitAt x y W) FitAccOmp.zero hs hr
    obtain ⟨b1, b2, b3, b4, b5, b6⟩ := fold_fitUpdOmp (T := T) f sS sC (fitAt x y W) (finishes evs) FitAccOmp.zero
    obtain ⟨c1, c2, c3, c4, c5, c6⟩ := fold_fitUpd f sS sC (fitAt x y W) (workRange n f s) FitAcc.zero
    have hperm := hs.finishes
    refine ⟨fun a ha => ?_, ?_⟩
    · rw [e1] at ha
      have ha' : a = _ := (Prod.mk.inj (Res.ok.inj ha)).1.symm
      have e2 : fitCoreOmp x y W f sS sC NoStop evs =
          (let s := ompRun (fun i => localFit x y (W i) (x i)) (fitUpdOmp f sS sC) NoStop evs FitAccOmp.zero
           .ok (⟨s.st.betas, s.st.se, ∑ t, s.st.shatAll t, ∑ t, s.st.qdiagAll t, s.st.s, s.st.c⟩, false)) := by
        simp only [fitCoreOmp, h1, h2, if_true]
      refine ⟨_, e2, ?_⟩
      simp only [h3, b1, b2, b3, b4, b5, b6, ha', c1, c2, c3, c4, c5, c6]
      have slotEq : ∀ {κ α : Type} [DecidableEq κ] (slot : Fin n → κ) (v : Fin n → α) (g0 : κ → α),
          ((workRange n f s).map slot).Nodup →
          (finishes evs).foldl (fun g ti => Function.update g (slot ti.2) (v ti.2)) g0 =
            (workRange n f s).foldl (fun g i => Function.update g (slot i) (v i)) g0 := by
        intro κ α _ slot v g0 hnd
        obtain ⟨p1, p2⟩ := slotfold slot v (workRange n f s) (finishes evs) g0 hperm hnd
        funext q
        by_cases hq : q ∈ (workRange n f s).map slot
        · obtain ⟨i, hi, rfl⟩ := List.mem_map.1 hq
          rw [p1 i hi, foldl_update slot v _ g0 hnd i hi]
        · rw [p2 q hq, foldl_update_other slot v _ g0 q hq]
      have addEq : ∀ {M : Type} [AddCommMonoid M] (v : Fin n → M),
          ∑ t, ((finishes evs).foldl (fun a ti => Function.update a ti.1 (a ti.1 + v ti.2)) (0 : Fin T → M)) t =
            0 + ((workRange n f s).map v).sum := by
        intro M _ v
        rw [sum_foldl_thread v (finishes evs) 0]
        have : ((finishes evs).map fun ti => v ti.2) = ((finishes evs).map Prod.snd).map v := by rw [List.map_map]; rfl
        rw [this, (hperm.map v).sum_eq]
        simp
      have hid : ((workRange n f s).map (fun i : Fin n => i)).Nodup := by rw [List.map_id']; exact nodup_workRange n f s
      refine ⟨slotEq (fun i => i) (fun i => (fitAt x y W i).beta) 0 hid, slotEq (fun i => i) (fun i => seRow (fitAt x y W i)) 0 hid,
        addEq (fun i => shatRow i (fitAt x y W i)),
        addEq (fun i => qRow i (fitAt x y W i)), ?_, ?_⟩
      · rintro rfl
        simp only [if_true]
        exact slotEq (fun i => i.val - f) (fun i => (fitAt x y W i).si) _ (slot_nodup n f s)
      · rintro rfl
        simp only [if_true]
        exact slotEq (fun i => i.val - f) (fun i => (fitAt x y W i).ci) _ (slot_nodup n f s)
    · rw [e1]
      simp only [fitCoreOmp, h1, h2, if_true]
      simp
  · push Not at hall
    obtain ⟨i, him, hi⟩ := hall
    have hf := omp_fail (g := fun i => localFit x y (W i) (x i)) (upd := fitUpdOmp (T := T) f sS sC) (stop := NoStop)
      (fun _ => rfl) FitAccOmp.zero (nodup_workRange n f s) hs i him hi
    have hf' : fitCoreOmp x y W f sS sC NoStop evs = .throw .runtime := by
      simp only [fitCoreOmp, hf, Bool.false_eq_true, if_false]
    have hser : fitCoreSerial x y W f s sS sC NoStop = .throw .singular :=
      serialFor_fail (fun i => localFit_cases x y (W i) (x i)) _ 0 _ (fun _ _ => rfl) ⟨i, him, by
        rcases localFit_cases x y (W i) (x i) with ⟨r, hr⟩ | hr
        · exact absurd hr (hi r)
        · exact hr⟩
    rw [hf', hser]
    simp

/-- A schedule with two threads and overlapping iterations exists for the concrete fit. -/
theorem ex_schedule : Schedule (workRange 3 0 3)
    ([.start 1, .start 0, .finish 1 0, .start 2, .finish 0 1, .finish 1 2] : List (OmpEv (Fin 3) (Fin 2))) := by
  refine ⟨by decide, by decide, ?_⟩
  intro pre post t i h
  rcases pre with _ | ⟨a1, pre⟩
  · cases h
  rcases pre with _ | ⟨a2, pre⟩
  · cases h
  rcases pre with _ | ⟨a3, pre⟩
  · cases h; simp
  rcases pre with _ | ⟨a4, pre⟩
  · cases h
  rcases pre with _ | ⟨a5, pre⟩
  · cases h; simp
  rcases pre with _ | ⟨a6, pre⟩
  · cases h; simp
  · exfalso
    have := congrArg List.length h
    simp at this

theorem dblMax_big : (1000 : ℝ) ≤ dblMax := by
  have : (1 : ℝ) ≤ 2 ^ 1013 := one_le_pow₀ (by norm_num)
  have h2 : (2 : ℝ) ^ 1023 = 1024 * 2 ^ 1013 := by rw [show (1024 : ℝ) = 2 ^ 10 by norm_num, ← pow_add]
  have h3 : ((2 : ℝ)⁻¹) ^ 52 ≤ 1 := pow_le_one₀ (by norm_num) (by norm_num)
  unfold dblMax
  rw [h2]
  generalize (2 : ℝ) ^ 1013 = a at *
  generalize ((2 : ℝ)⁻¹) ^ 52 = b at *
  clear h2
  nlinarith [mul_nonneg (sub_nonneg.2 h3) (sub_nonneg.2 this)]

/-! ## C28 -/

theorem coreOmp_eq_serial (x : Matrix (Fin n) (Fin k) ℝ) (y : Fin n → ℝ) (W : Fin n → Fin n → ℝ)
    (evs : List (OmpEv (Fin n) (Fin T))) (hs : Schedule (workRange n 0 n) evs) :
    ((∃ r, fitCoreCVSerial x y W 0 n NoStop = .ok r) → fitCoreCVOmp x y W NoStop evs = fitCoreCVSerial x y W 0 n NoStop) ∧
    ((∃ r, fitCoreSHatSerial x y W 0 n NoStop = .ok r) → fitCoreSHatOmp x y W NoStop evs = fitCoreSHatSerial x y W 0 n NoStop) := by
  have noterm : ∀ {ι ρ σ : Type} (g : ι → Res ρ) (upd : ι → ρ → σ → σ) (is : List ι) (p : ℕ) (s : σ) (r : σ × Bool),
      serialFor g upd NoStop is p s = .ok r → r.2 = false := by
    intro ι ρ σ g upd is
    induction is with
    | nil => intro p s r h; rw [← Res.ok.inj h]
    | cons i is ih =>
      intro p s r h
      simp only [serialFor, Bool.false_eq_true, if_false, Res.bind_eq_ok'] at h
      obtain ⟨a, -, h⟩ := h
      exact ih _ _ _ h
  have hperm := hs.finishes
  have hnd := nodup_workRange n 0 n
  have slotEq : ∀ {α : Type} (v : Fin n → α) (g0 : Fin n → α),
      (finishes evs).foldl (fun g ti => Function.update g ti.2 (v ti.2)) g0 =
        (workRange n 0 n).foldl (fun g i => Function.update g i (v i)) g0 := by
    intro α v g0
    have hid : ((workRange n 0 n).map (fun i : Fin n => i)).Nodup := by rw [List.map_id']; exact hnd
    obtain ⟨p1, p2⟩ := slotfold (fun i => i) v (workRange n 0 n) (finishes evs) g0 hperm hid
    funext q
    have hq : q ∈ workRange n 0 n := mem_workRange.2 ⟨Nat.zero_le _, q.isLt⟩
    have a1 := p1 q hq
    have a2 := foldl_update (fun i : Fin n => i) v _ g0 hid q hq
    exact a1.trans a2.symm
  constructor
  · rintro ⟨⟨b, t⟩, hb⟩
    obtain rfl : t = false := noterm _ _ _ _ _ _ hb
    have hex := serialFor_complete _ _ _ _ hb
    choose! r hr using hex
    obtain ⟨h1, h2, h3⟩ := omp_ok (upd := fun (_ : Fin T) => setRow) (stop := NoStop)
      (fun _ => rfl) r (0 : Matrix (Fin n) (Fin k) ℝ) hs hr
    have e1 : fitCoreCVSerial x y W 0 n NoStop = _ := serialFor_ok r _ 0 _ (fun _ _ => rfl) hr
    have e2 : fitCoreCVOmp x y W NoStop evs = fitCoreCVSerial x y W 0 n NoStop := by
      rw [e1]
      simp only [fitCoreCVOmp, h2]
      congr 2
      exact h3.trans (slotEq r _)
    exact e2
  · rintro ⟨⟨b, t⟩, hb⟩
    obtain rfl : t = false := noterm _ _ _ _ _ _ hb
    have hex := serialFor_complete _ _ _ _ hb
    have : Nonempty (LocalFit n k) := ⟨⟨0, 0, 0⟩⟩
    choose! r hr using hex
    obtain ⟨h1, h2, h3⟩ := omp_ok (upd := shatUpdOmp (T := T)) (stop := NoStop)
      (fun _ => rfl) r (0, 0) hs hr
    have e1 : fitCoreSHatSerial x y W 0 n NoStop = _ := serialFor_ok r _ 0 _ (fun _ _ => rfl) hr
    have pairS : ∀ (l : List (Fin n)) (a : Matrix (Fin n) (Fin k) ℝ × (Fin 2 → ℝ)),
        l.foldl (fun a i => shatUpd i (r i) a) a =
          (l.foldl (fun g i => Function.update g i (r i).beta) a.1, l.foldl (fun s i => s + shatRow i (r i)) a.2) := by
      intro l
      induction l with
      | nil => intro a; rfl
      | cons i l ih => intro a; rw [List.foldl_cons, ih]; rfl
    have pairP : ∀ (l : List (Fin T × Fin n)) (a : Matrix (Fin n) (Fin k) ℝ × (Fin T → Fin 2 → ℝ)),
        l.foldl (fun a ti => shatUpdOmp ti.1 ti.2 (r ti.2) a) a =
          (l.foldl (fun g ti => Function.update g ti.2 (r ti.2).beta) a.1,
            l.foldl (fun s ti => Function.update s ti.1 (s ti.1 + shatRow ti.2 (r ti.2))) a.2) := by
      intro l
      induction l with
      | nil => intro a; rfl
      | cons i l ih => intro a; rw [List.foldl_cons, ih]; rfl
    have e2 : fitCoreSHatOmp x y W NoStop evs = fitCoreSHatSerial x y W 0 n NoStop := by
      rw [e1]
      have h3' := h3.trans (pairP _ _)
      have hs2 := pairS (workRange n 0 n) (0, 0)
      simp only [fitCoreSHatOmp, h2]
      refine congrArg Res.ok (Prod.ext (Prod.ext ?_ ?_) rfl)
      · refine (congrArg Prod.fst h3').trans (Eq.trans (slotEq (fun i => (r i).beta) _) (congrArg Prod.fst hs2).symm)
      · refine Eq.trans ?_ (congrArg Prod.snd hs2).symm
        rw [congrArg Prod.snd h3', foldl_add]
        have a1 := sum_foldl_thread (T := Fin T) (fun i => shatRow i (r i)) (finishes evs) 0
        refine Eq.trans a1 ?_
        have : ((finishes evs).map fun ti => shatRow ti.2 (r ti.2)) =
            ((finishes evs).map Prod.snd).map (fun i => shatRow i (r i)) := by rw [List.map_map]; rfl
        rw [this, (hperm.map _).sum_eq]
        simp
    exact e2

/-- **C28 (partial).** When every local fit succeeds, both bandwidth criteria have the same value in parallel as serially, for
every number of threads and schedule. Missing: the case where some local fit is singular, see
`C28_singular_criteria_differ`. -/
theorem C28_criteria_equal_partial (x : Matrix (Fin n) (Fin k) ℝ) (y : Fin n → ℝ) (W : Fin n → Fin n → ℝ)
    (evs : List (OmpEv (Fin n) (Fin T))) (hs : Schedule (workRange n 0 n) evs) (terminated0 : Bool) :
    ((∃ r, fitCoreCVSerial x y W 0 n NoStop = .ok r) →
      criterionCV x y terminated0 (fitCoreCVOmp x y W NoStop evs) =
        criterionCV x y terminated0 (fitCoreCVSerial x y W 0 n NoStop)) ∧
    ((∃ r, fitCoreSHatSerial x y W 0 n NoStop = .ok r) →
      criterionAIC x y terminated0 (fitCoreSHatOmp x y W NoStop evs) =
        criterionAIC x y terminated0 (fitCoreSHatSerial x y W 0 n NoStop)) := by
  obtain ⟨q1, q2⟩ := coreOmp_eq_serial x y W evs hs
  exact ⟨fun h => by rw [q1 h], fun h => by rw [q2 h]⟩

theorem omp_all_fail {ι ρ σ τ : Type} [DecidableEq ι] {g : ι → Res ρ} {upd : τ → ι → ρ → σ → σ} {stop : ℕ → Bool}
    (hg : ∀ i r, g i ≠ .ok r) : ∀ (evs : List (OmpEv ι τ)) (s : OmpState ι σ),
      (evs.foldl (ompStep g upd stop) s).st = s.st ∧
        ((∀ q, stop q = false) → s.terminated = false → (evs.foldl (ompStep g upd stop) s).terminated = false)
  | [], s => ⟨rfl, fun _ h => h⟩
  | e :: es, s => by
    obtain ⟨i1, i2⟩ := omp_all_fail hg es (ompStep g upd stop s e)
    rw [List.foldl_cons]
    have hst : (ompStep g upd stop s e).st = s.st ∧
        ((∀ q, stop q = false) → s.terminated = false → (ompStep g upd stop s e).terminated = false) := by
      cases e with
      | start i =>
        simp only [ompStep]
        split
        · rename_i h; exact ⟨rfl, fun hs _ => by rw [hs] at h; cases h⟩
        · exact ⟨rfl, fun _ h => h⟩
      | finish t i =>
        simp only [ompStep]
        split
        · cases hgi : g i with
          | ok r => exact absurd hgi (hg i r)
          | throw e => exact ⟨rfl, fun _ h => h⟩
          | ub => exact ⟨rfl, fun _ h => h⟩
          | nonfinite => exact ⟨rfl, fun _ h => h⟩
        · exact ⟨rfl, fun _ h => h⟩
    exact ⟨i1.trans hst.1, fun hs ht => i2 hs (hst.2 hs ht)⟩

/-- Weights of isolated points: every location only sees its own observation (a compact kernel with a small bandwidth). -/
def isoW : Fin 3 → Fin 3 → ℝ := fun i l => if l = i then 1 else 0

theorem iso_singular (w : Fin 3 → ℝ) (i : Fin 3) (hw : ∀ l, l ≠ i → w l = 0) : ¬ (xtwx exX w).PosDef := by
  rw [gram_posDef_iff]
  intro h
  have := h ![exX i 1, -1] (by
    intro h0
    have := congrFun h0 1
    simp at this)
  have hz : ∑ l, w l * (∑ j, exX l j * (![exX i 1, -1] : Fin 2 → ℝ) j) ^ 2 = 0 := by
    refine Finset.sum_eq_zero fun l _ => ?_
    by_cases hl : l = i
    · subst hl
      have : exX l 0 = 1 := by fin_cases l <;> simp [exX]
      simp [Fin.sum_univ_two, this]
    · rw [hw l hl, zero_mul]
  rw [hz] at this
  exact lt_irrefl _ this

/-- **C28 (negation).** For three isolated points every local fit is singular. Serially both criteria are DBL_MAX (the
bandwidth is rejected); in parallel, for every number of threads and every schedule, they are ordinary finite numbers: the
failure is swallowed and zero coefficients are scored. -/
theorem C28_singular_criteria_differ (evs : List (OmpEv (Fin 3) (Fin T))) :
    criterionCV exX ![1, 3, 2] false (fitCoreCVSerial exX ![1, 3, 2] isoW 0 3 NoStop) = dblMax ∧
    criterionCV exX ![1, 3, 2] false (fitCoreCVOmp exX ![1, 3, 2] isoW NoStop evs) = 14 ∧
    criterionAIC exX ![1, 3, 2] false (fitCoreSHatSerial exX ![1, 3, 2] isoW 0 3 NoStop) = dblMax ∧
    criterionAIC exX ![1, 3, 2] false (fitCoreSHatOmp exX ![1, 3, 2] isoW NoStop evs) < dblMax := by
  have hcv : ∀ i r, localBeta exX ![1, 3, 2] (cvWeight isoW i) ≠ .ok r := fun i r h =>
    iso_singular _ i (fun l hl => by simp [cvWeight, isoW, hl]) (localBeta_eq_ok.1 h).1
  have hsh : ∀ i r, localFit exX ![1, 3, 2] (isoW i) (exX i) ≠ .ok r := fun i r h =>
    iso_singular _ i (fun l hl => by simp [isoW, hl]) (localFit_eq_ok.1 h).1
  have hrss : rss exX ![1, 3, 2] 0 = 14 := by
    simp [rss, fitted, Fin.sum_univ_three]; norm_num
  have hmax : (100 : ℝ) < dblMax := by exact lt_of_lt_of_le (by norm_num) dblMax_big
  refine ⟨?_, ?_, ?_, ?_⟩
  · have : fitCoreCVSerial exX ![1, 3, 2] isoW 0 3 NoStop = .throw .singular :=
      serialFor_fail (fun i => localBeta_cases _ _ _) _ 0 _ (fun _ _ => rfl) ⟨0, mem_workRange.2 ⟨by simp, by simp⟩, by
        rcases localBeta_cases exX ![1, 3, 2] (cvWeight isoW 0) with ⟨r, hr⟩ | hr
        · exact absurd hr (hcv 0 r)
        · exact hr⟩
    rw [this]; rfl
  · obtain ⟨h1, h2⟩ := omp_all_fail (g := fun i => localBeta exX ![1, 3, 2] (cvWeight isoW i)) (upd := fun (_ : Fin T) => setRow)
      (stop := NoStop) hcv evs
      ⟨(0 : Matrix (Fin 3) (Fin 2) ℝ), true, fun _ => false, 0, false⟩
    have h2' := h2 (fun _ => rfl) rfl
    simp only [fitCoreCVOmp, criterionCV, ompRun]
    rw [h1, h2', if_pos ⟨trivial, rfl⟩, hrss, finiteOrMax, if_pos]
    rw [abs_of_pos (by norm_num)]; linarith
  · have : fitCoreSHatSerial exX ![1, 3, 2] isoW 0 3 NoStop = .throw .singular :=
      serialFor_fail (fun i => localFit_cases _ _ _ _) _ 0 _ (fun _ _ => rfl) ⟨0, mem_workRange.2 ⟨by simp, by simp⟩, by
        rcases localFit_cases exX ![1, 3, 2] (isoW 0) (exX 0) with ⟨r, hr⟩ | hr
        · exact absurd hr (hsh 0 r)
        · exact hr⟩
    rw [this]; rfl
  · obtain ⟨h1, h2⟩ := omp_all_fail (g := fun i => localFit exX ![1, 3, 2] (isoW i) (exX i)) (upd := shatUpdOmp (T := T))
      (stop := NoStop) hsh evs
      ⟨(0, 0), true, fun _ => false, 0, false⟩
    have h2' := h2 (fun _ => rfl) rfl
    have e : fitCoreSHatOmp exX ![1, 3, 2] isoW NoStop evs = .ok ((0, 0), false) := by
      simp only [fitCoreSHatOmp, ompRun]
      rw [h1, h2']
      simp
    have ea : aicc exX ![1, 3, 2] 0 ((0 : Fin 2 → ℝ) 0) = .ok (3 * Real.log (14 / 3) + 3 * Real.log (2 * Real.pi) + 3 * 3) := by
      simp only [aicc, fdiv, flog, hrss, Pi.zero_apply, Res.bind]
      norm_num [Res.bind]
    rw [e]
    simp only [criterionAIC, ea, and_self, if_true]
    have l1 : Real.log (14 / 3) ≤ 14 / 3 - 1 := Real.log_le_sub_one_of_pos (by norm_num)
    have l2 : Real.log (2 * Real.pi) ≤ 2 * Real.pi - 1 := Real.log_le_sub_one_of_pos (by positivity)
    have l3 : 0 ≤ Real.log (14 / 3) := Real.log_nonneg (by norm_num)
    have l4 : 0 ≤ Real.log (2 * Real.pi) := Real.log_nonneg (by linarith [Real.pi_gt_three])
    have hpi := Real.pi_lt_d2
    have hpi' : Real.pi < 4 := by linarith
    have hb : 3 * Real.log (14 / 3) + 3 * Real.log (2 * Real.pi) + 3 * 3 ≤ 100 := by linarith
    rw [finiteOrMax, if_pos]
    · linarith
    · rw [abs_of_nonneg (by positivity)]; linarith

/-! ## C29 -/

theorem serialFor_stop {ι ρ σ : Type} {g : ι → Res ρ} {upd : ι → ρ → σ → σ} {stop : ℕ → Bool} :
    ∀ (is : List ι) (p q : ℕ) (s : σ), p ≤ q → q < p + is.length → stop q = true → ∀ r,
      serialFor g upd stop is p s = .ok r → r.2 = true
  | [], p, q, s, h1, h2, _, r, _ => by simp at h2; omega
  | i :: is, p, q, s, h1, h2, hq, r, h => by
    simp only [serialFor] at h
    split at h
    · rw [← Res.ok.inj h]
    · rename_i hp
      rw [Res.bind_eq_ok'] at h
      obtain ⟨a, -, h⟩ := h
      have hne : p ≠ q := fun e => hp (e ▸ hq)
      exact serialFor_stop is (p + 1) q _ (by omega) (by simp only [List.length_cons] at h2; omega) hq r h

theorem omp_polls {ι ρ σ τ : Type} [DecidableEq ι] {g : ι → Res ρ} {upd : τ → ι → ρ → σ → σ} {stop : ℕ → Bool} :
    ∀ (evs : List (OmpEv ι τ)) (s : OmpState ι σ),
      (s.terminated = true ∨ ∃ q, s.polls ≤ q ∧ q < s.polls + (starts evs).length ∧ stop q = true) →
      (evs.foldl (ompStep g upd stop) s).terminated = true
  | [], s, h => by
    rcases h with h | ⟨q, h1, h2, -⟩
    · exact h
    · simp [starts] at h2; omega
  | .start i :: es, s, h => by
    rw [List.foldl_cons]
    apply omp_polls es
    simp only [ompStep]
    split
    · exact Or.inl rfl
    · rename_i hs
      rcases h with h | ⟨q, h1, h2, h3⟩
      · exact Or.inl h
      · right
        have hne : s.polls ≠ q := fun e => hs (e ▸ h3)
        simp only [starts, List.length_cons] at h2
        exact ⟨q, by simp only; omega, by simp only; omega, h3⟩
  | .finish t i :: es, s, h => by
    rw [List.foldl_cons]
    apply omp_polls es
    have e1 : (ompStep g upd stop s (.finish t i)).terminated = s.terminated := by
      simp only [ompStep]; split
      · cases g i <;> rfl
      · rfl
    have e2 : (ompStep g upd stop s (.finish t i)).polls = s.polls := by
      simp only [ompStep]; split
      · cases g i <;> rfl
      · rfl
    rw [e1, e2]
    exact h

theorem length_workRange (n : ℕ) : (workRange n 0 n).length = n := by rw [workRange_all, List.length_finRange]

/-- **C29 (criteria).** If a stop request is seen at any poll of a criterion evaluation, or the status was already Terminated,
the evaluation returns DBL_MAX: it can never beat a completed evaluation. Serial and parallel, every schedule. -/
theorem C29_cancelled_criterion_never_wins (x : Matrix (Fin n) (Fin k) ℝ) (y : Fin n → ℝ) (W : Fin n → Fin n → ℝ)
    (stop : ℕ → Bool) (terminated0 : Bool) (hstop : terminated0 = true ∨ ∃ q < n, stop q = true)
    (evs : List (OmpEv (Fin n) (Fin T))) (hs : Schedule (workRange n 0 n) evs) :
    criterionCV x y terminated0 (fitCoreCVSerial x y W 0 n stop) = dblMax ∧
    criterionAIC x y terminated0 (fitCoreSHatSerial x y W 0 n stop) = dblMax ∧
    criterionCV x y terminated0 (fitCoreCVOmp x y W stop evs) = dblMax ∧
    criterionAIC x y terminated0 (fitCoreSHatOmp x y W stop evs) = dblMax := by
  have hcv : ∀ core, (terminated0 = true ∨ ∀ r, core = .ok r → r.2 = true) → criterionCV x y terminated0 core = dblMax := by
    intro core h
    cases core with
    | ok r =>
      obtain ⟨b, t⟩ := r
      simp only [criterionCV]
      rw [if_neg]
      rintro ⟨h1, h2⟩
      rcases h with h | h
      · rw [h] at h1; cases h1
      · have := h _ rfl; simp only at this; rw [this] at h2; cases h2
    | _ => rfl
  have haic : ∀ core, (terminated0 = true ∨ ∀ r, core = .ok r → r.2 = true) → criterionAIC x y terminated0 core = dblMax := by
    intro core h
    cases core with
    | ok r =>
      obtain ⟨⟨b, sh⟩, t⟩ := r
      simp only [criterionAIC]
      split
      · rw [if_neg]
        rintro ⟨h1, h2⟩
        rcases h with h | h
        · rw [h] at h1; cases h1
        · have := h _ rfl; simp only at this; rw [this] at h2; cases h2
      · rfl
    | _ => rfl
  have hlen : (starts evs).length = n := by rw [hs.starts.length_eq, length_workRange]
  refine ⟨hcv _ ?_, haic _ ?_, hcv _ ?_, haic _ ?_⟩
  · rcases hstop with h | ⟨q, hq, hq'⟩
    · exact Or.inl h
    · exact Or.inr fun r h => serialFor_stop _ 0 q _ (Nat.zero_le _) (by rw [length_workRange]; omega) hq' r h
  · rcases hstop with h | ⟨q, hq, hq'⟩
    · exact Or.inl h
    · exact Or.inr fun r h => serialFor_stop _ 0 q _ (Nat.zero_le _) (by rw [length_workRange]; omega) hq' r h
  · rcases hstop with h | ⟨q, hq, hq'⟩
    · exact Or.inl h
    · refine Or.inr fun r h => ?_
      rw [← Res.ok.inj h]
      exact omp_polls evs _ (Or.inr ⟨q, Nat.zero_le _, by rw [hlen]; simp only; omega, hq'⟩)
  · rcases hstop with h | ⟨q, hq, hq'⟩
    · exact Or.inl h
    · refine Or.inr fun r h => ?_
      rw [← Res.ok.inj h]
      exact omp_polls evs _ (Or.inr ⟨q, Nat.zero_le _, by rw [hlen]; simp only; omega, hq'⟩)

/-- **C29 (fit and predict).** If a stop request is seen at any poll of a fit or prediction that returns, the status it leaves
is Terminated. -/
theorem C29_cancelled_run_is_marked (x : Matrix (Fin n) (Fin k) ℝ) (y : Fin n → ℝ) (W : Fin n → Fin n → ℝ) (P : Fin m → Fin n → ℝ)
    (sS sC : Bool) (stop : ℕ → Bool)
    (evs : List (OmpEv (Fin n) (Fin T))) (hs : Schedule (workRange n 0 n) evs)
    (evp : List (OmpEv (Fin m) (Fin T))) (hp : Schedule (List.finRange m) evp) :
    ((∃ q < n, stop q = true) →
      (∀ r, fitCoreSerial x y W 0 n sS sC stop = .ok r → r.2 = true) ∧
      (∀ r, fitCoreOmp x y W 0 sS sC stop evs = .ok r → r.2 = true)) ∧
    ((∃ q < m, stop q = true) →
      (∀ r, predictSerial x y P stop = .ok r → r.2 = true) ∧ (∀ r, predictOmp x y P stop evp = .ok r → r.2 = true)) := by
  have hlen : (starts evs).length = n := by rw [hs.starts.length_eq, length_workRange]
  have hlen' : (starts evp).length = m := by rw [hp.starts.length_eq, List.length_finRange]
  constructor
  · rintro ⟨q, hq, hq'⟩
    constructor
    · exact fun r h => serialFor_stop _ 0 q _ (Nat.zero_le _) (by rw [length_workRange]; omega) hq' r h
    · intro r h
      simp only [fitCoreOmp] at h
      split at h
      · rw [← Res.ok.inj h]
        exact omp_polls evs _ (Or.inr ⟨q, Nat.zero_le _, by rw [hlen]; simp only; omega, hq'⟩)
      · cases h
  · rintro ⟨q, hq, hq'⟩
    constructor
    · exact fun r h => serialFor_stop _ 0 q _ (Nat.zero_le _) (by rw [List.length_finRange]; omega) hq' r h
    · intro r h
      simp only [predictOmp] at h
      split at h
      · rw [← Res.ok.inj h]
        exact omp_polls evp _ (Or.inr ⟨q, Nat.zero_le _, by rw [hlen']; simp only; omega, hq'⟩)
      · cases h

end Verif.Props

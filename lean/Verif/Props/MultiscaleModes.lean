import Verif.Model.MultiscaleModes
import Verif.Spec.BackFitting
import Verif.Props.GWRMultiscaleRun
import Verif.Props.SearchRange

/-! Whole runs of multiscale regression, serial and multithreaded, with every kind of bandwidth (C135). -/

namespace Verif.Props
open Verif Verif.Model Verif.Spec Matrix Classical

variable {n k : ℕ}

/-- In multithreaded loops every location is visited exactly once, in any order, by any thread. -/
def _root_.Verif.Model.MgwrModes.Valid (md : MgwrModes n k) : Prop :=
  (∀ j, (md.search0 j).Valid) ∧ md.fit0.Valid ∧ (∀ i j, (md.start i j).Valid) ∧ (∀ it i j, (md.search it i j).Valid) ∧ ∀ it i, (md.fitVar it i).Valid

/-- All bandwidth searches of the variables run serially. -/
def _root_.Verif.Model.MgwrModes.SerialSearches (md : MgwrModes n k) : Prop :=
  (∀ i j, md.start i j = .serial) ∧ ∀ it i j, md.search it i j = .serial

/-! ## Fitting one variable in any mode -/

theorem fitVarCoreIn_eq (x : Matrix (Fin n) (Fin 1) ℝ) (y : Fin n → ℝ) (W : Fin n → Fin n → ℝ) {ex : Exec n} (hex : ex.Valid) :
    fitVarCoreIn x y W ex = fitVarCoreSerial x y W NoStop := by
  cases ex with
  | serial => rfl
  | omp evs => exact C34_parallel_agrees x y W evs hex

theorem fitVarIn_ok {ex : Exec n} (hex : ex.Valid) {d' : CRSDistance} {b : BandwidthWeight} {x : Matrix (Fin n) (Fin 1) ℝ} {y : Fin n → ℝ}
    {r : (Fin n → ℝ) × Matrix (Fin n) (Fin n) ℝ} (h : fitVarIn ex d' b x y = .ok r) :
    ∃ W, weightRows d' b n n = .ok W ∧ fitVarCoreSerial x y W NoStop = .ok r := by
  unfold fitVarIn at h
  obtain ⟨W, hW, h⟩ := Res.bind_eq_ok'.1 h
  rw [fitVarCoreIn_eq x y W hex] at h
  refine ⟨W, ?_, h⟩
  cases ex <;> cases hw : weightRows d' b n n <;> rw [hw] at hW <;> simp_all [summaryEscape]

theorem fitVar_wls {x : Matrix (Fin n) (Fin 1) ℝ} {y : Fin n → ℝ} {W : Fin n → Fin n → ℝ} {r : (Fin n → ℝ) × Matrix (Fin n) (Fin n) ℝ}
    (h : fitVarCoreSerial x y W NoStop = .ok r) (j : Fin n) : IsWLS x y (W j) fun _ => r.1 j := by
  rw [fitVarSerial_eq _ _ _ (fun _ => rfl)] at h
  split at h
  · rename_i hpd
    cases Res.ok.inj h
    have heq : (fun _ : Fin 1 => (fitAt x y W j).beta 0) = (xtwx x (W j))⁻¹ *ᵥ (xtw x (W j) *ᵥ y) := by
      funext q
      rw [Subsingleton.elim q 0]
      simp [fitAt]
    show IsWLS x y (W j) fun _ : Fin 1 => (fitAt x y W j).beta 0
    rw [heq]
    exact isWLS_of_posDef (hpd j)
  · cases h

/-! ## Searching one bandwidth in any mode -/

theorem searchIn_chosen {u : MgwrSetup n k} {x : Matrix (Fin n) (Fin k) ℝ} {d' : Fin k → CRSDistance} {range : Fin k → ℝ × ℝ} {i : Fin k}
    {y : Fin n → ℝ} {b0 b : BandwidthWeight} {sched : ℕ → Exec n} (hs : ∀ j, (sched j).Valid) {serial : Prop} (hser : serial → ∀ j, sched j = .serial)
    (hc : FitsData u.coords n) (hn : 0 < n) {geo : Bool} {dist : Fin k → Fin n → Fin n → ℝ} (hd : IsMapDistance geo u.coords u.coords (dist i))
    (hd' : d' i = ⟨geo, some (u.coords, u.coords)⟩) (hr : mgwrDistRange (u.init i) (d' i) = .ok (range i))
    (h : (u.searchIn x d' range i y b0 sched).out = .ok b) : IsSearched u serial dist x i y b0 b := by
  unfold MgwrSetup.searchIn at h
  have hk := optimize_kind _ _ _ _ _ h
  have hev := evals_oracle b0 (mgwrBounds (u.init i) b0.mAdaptive u.adaptiveLower u.lower u.upper n (range i)).1
    (mgwrBounds (u.init i) b0.mAdaptive u.adaptiveLower u.lower u.upper n (range i)).2
    (fun j b => (true, varCriterionIn (u.approach i) (d' i) (colOf x i) y b (sched j))) []
  obtain ⟨l, v, hlv, hbd⟩ : ∃ l v, MultiscaleRange (u.init i ≠ .Null) b0.mAdaptive u.adaptiveLower (dist i) l v ∧
      mgwrBounds (u.init i) b0.mAdaptive u.adaptiveLower u.lower u.upper n (range i) = (u.lower.getD l, u.upper.getD v) := by
    unfold MultiscaleRange
    cases ha : b0.mAdaptive with
    | true => exact ⟨u.adaptiveLower, n, by simp, by simp [mgwrBounds]⟩
    | false =>
      simp only [Bool.false_eq_true, if_false]
      by_cases hN : u.init i = .Null
      · rw [hN, hd'] at hr
        unfold mgwrDistRange at hr
        rw [if_pos rfl] at hr
        obtain ⟨M, hM, hr⟩ := Res.bind_eq_ok'.1 hr
        obtain ⟨m, hm, hr⟩ := Res.bind_eq_ok'.1 hr
        have hri := (Res.ok.inj hr).symm
        refine ⟨m, M, ⟨?_, Or.inr ⟨by simp [hN], map_max hc hn hd hM⟩⟩, by simp [mgwrBounds, hN, hri]⟩
        unfold CRSDistance.minDistance at hm
        simp only [hc.2] at hm
        obtain ⟨-, h2, h3⟩ := minLoop_spec hm
        apply le_antisymm
        · obtain ⟨l, hl, -, hle⟩ := h2 0 (List.mem_range.2 hn)
          have := map_rows hc hd ⟨0, hn⟩
          cases Res.ok.inj (hl.symm.trans this)
          have := hle _ (List.mem_ofFn.2 ⟨⟨0, hn⟩, rfl⟩)
          rwa [map_diag hd] at this
        · rcases h3 with rfl | ⟨i, hi, l, hl, hmem⟩
          · linarith [hundred_lt_dblMax]
          · have hi' := List.mem_range.1 hi
            cases Res.ok.inj (hl.symm.trans (map_rows hc hd ⟨i, hi'⟩))
            obtain ⟨j, hj⟩ := List.mem_ofFn.1 hmem
            rw [← hj]
            exact mapDistance_nonneg hd _ _
      · exact ⟨0, 0, ⟨rfl, Or.inl ⟨hN, rfl⟩⟩, by simp [mgwrBounds, hN]⟩
  refine ⟨l, v, hlv, ((u.searchIn x d' range i y b0 sched).evals.map fun e => (e.x, e.f)), ?_, by rw [hk], by rw [hk], ?_, ?_⟩
  · have := C127_search_starts b0 (mgwrBounds (u.init i) b0.mAdaptive u.adaptiveLower u.lower u.upper n (range i)).1
      (mgwrBounds (u.init i) b0.mAdaptive u.adaptiveLower u.lower u.upper n (range i)).2
      (fun j b => (true, varCriterionIn (u.approach i) (d' i) (colOf x i) y b (sched j))) []
    rw [hbd] at this
    rw [List.map_map]
    unfold MgwrSetup.searchIn
    rw [hbd]
    exact this
  · obtain ⟨e, he, hx, hbest⟩ := C14_returns_best_evaluated _ _ _ _ _ _ h fun e he => by
      obtain ⟨j, hj⟩ := hev e he
      exact (Prod.mk.inj hj).1.symm
    refine ⟨(e.x, e.f), List.mem_map.2 ⟨e, he, rfl⟩, hx, fun e' he' => ?_⟩
    obtain ⟨e1, he1, rfl⟩ := List.mem_map.1 he'
    exact hbest e1 he1
  · intro e' he' hu w hw
    obtain ⟨e, he, rfl⟩ := List.mem_map.1 he'
    obtain ⟨j, hj⟩ := hev e he
    rw [hd'] at hj
    obtain ⟨c1, c2⟩ := C119_criterion (u.approach i) (sched j) (hs j) geo _ u.coords hc (dist i) w hd hu hw (colOf x i) y
    have hf : gwrCriterionEx (u.approach i) ⟨geo, some (u.coords, u.coords)⟩ (colOf x i) y { b0 with mBandwidth := e.x } (sched j) = e.f :=
      (Prod.mk.inj hj).2
    refine ⟨fun v hv hle => ?_, fun hse hno => ?_⟩
    · show e.f = v
      rw [← hf, c1 v hv, if_pos hle]
    · show e.f = dblMax
      rw [← hf]
      exact c2 (hser hse j) hno

/-! ## One sweep -/

/-- What the states of back-fitting show. -/
def stageOf (s : BfState n k) : Stage n k := ⟨s.betas, s.bw, s.changeNo, fun i => s.init i = .Specified⟩

/-- The residuals are what the coefficients leave. -/
def ResidOf (x : Matrix (Fin n) (Fin k) ℝ) (y : Fin n → ℝ) (s : BfState n k) : Prop := ∀ l, s.resid l = y l - ∑ m, x l m * s.betas l m

/-- What happens to variable `i` when it has to explain `r`. -/
def VarSwept (u : MgwrSetup n k) (serial : Prop) (dist : Fin k → Fin n → Fin n → ℝ) (x : Matrix (Fin n) (Fin k) ℝ) (i : Fin k) (r : Fin n → ℝ)
    (s s' : Stage n k) : Prop :=
  (s.frozen i → s'.frozen i ∧ s'.bw i = s.bw i ∧ s'.quiet i = s.quiet i) ∧
    (¬ s.frozen i → IsSearched u serial dist x i r (s.bw i) (s'.bw i) ∧
      (u.threshold i < |(s'.bw i).mBandwidth - (s.bw i).mBandwidth| → s'.quiet i = 0 ∧ ¬ s'.frozen i) ∧
      (|(s'.bw i).mBandwidth - (s.bw i).mBandwidth| ≤ u.threshold i → s'.quiet i = s.quiet i + 1 ∧ (s'.frozen i ↔ u.retry ≤ s'.quiet i))) ∧
    (UsableRadius (s'.bw i) (dist i) → ∀ w, IsKernelWeight (s'.bw i) (dist i) w → ∀ j, IsWLS (single x i) r (w j) fun _ => s'.B j i)

/-- Nothing about variable `m` changes. -/
def SameVar (m : Fin k) (s s' : BfState n k) : Prop :=
  (∀ j, s'.betas j m = s.betas j m) ∧ s'.bw m = s.bw m ∧ s'.changeNo m = s.changeNo m ∧ s'.init m = s.init m

theorem SameVar.trans' {m : Fin k} {a b c : BfState n k} (h : SameVar m a b) (h' : SameVar m b c) : SameVar m a c :=
  ⟨fun j => (h'.1 j).trans (h.1 j), h'.2.1.trans h.2.1, h'.2.2.1.trans h.2.2.1, h'.2.2.2.trans h.2.2.2⟩

/-- What the model of a run assumes about distances and ranges. -/
structure RunData (u : MgwrSetup n k) (dist : Fin k → Fin n → Fin n → ℝ) (d' : Fin k → CRSDistance) (range : Fin k → ℝ × ℝ) : Prop where
  fits : FitsData u.coords n
  pos : 0 < n
  map : ∀ i, IsMapDistance (u.dist i).mGeographic u.coords u.coords (dist i)
  bound : ∀ i, d' i = ⟨(u.dist i).mGeographic, some (u.coords, u.coords)⟩
  range : ∀ i, mgwrDistRange (u.init i) (d' i) = .ok (range i)

theorem bfVarIn_swept {u : MgwrSetup n k} {hat : Bool} {md : MgwrModes n k} (hv : md.Valid) {x : Matrix (Fin n) (Fin k) ℝ} {d' : Fin k → CRSDistance}
    {range : Fin k → ℝ × ℝ} {dist : Fin k → Fin n → Fin n → ℝ} (hd : RunData u dist d' range) {it : ℕ} {i : Fin k} {s s' : BfState n k}
    (hs : ResidOf x u.y s) (h : bfVarIn u hat md x d' range it i s = .ok s') :
    ResidOf x u.y s' ∧ (∀ m, m ≠ i → SameVar m s s') ∧
      VarSwept u md.SerialSearches dist x i (fun l => u.y l - ∑ m ∈ Finset.univ.erase i, x l m * s.betas l m) (stageOf s) (stageOf s') := by
  have hp : partialResid (u.cfgIn hat x) i s = fun l => u.y l - ∑ m ∈ Finset.univ.erase i, x l m * s.betas l m := by
    funext l
    rw [partialResid, hs, ← Finset.add_sum_erase _ _ (Finset.mem_univ i)]
    simp only [MgwrSetup.cfgIn]
    ring
  unfold bfVarIn at h
  obtain ⟨s1, h1, h⟩ := Res.bind_eq_ok'.1 h
  obtain ⟨r, h2, h⟩ := Res.bind_eq_ok'.1 h
  cases Res.ok.inj h
  rw [hp] at h1 h2
  obtain ⟨W, hW, hfit⟩ := fitVarIn_ok (hv.2.2.2.2 it i) h2
  have hwls : UsableRadius (s1.bw i) (dist i) → ∀ w, IsKernelWeight (s1.bw i) (dist i) w →
      ∀ j, IsWLS (single x i) (fun l => u.y l - ∑ m ∈ Finset.univ.erase i, x l m * s.betas l m) (w j) fun _ => r.1 j := by
    intro hu w hw j
    obtain ⟨W', e1, e2, -⟩ := kernelRows hd.fits.2 hd.fits.2 (hd.map i) hu fun _ => hd.pos
    rw [← hd.bound i] at e1
    cases Res.ok.inj (e1.symm.trans hW)
    rw [kernelWeight_unique hw e2]
    exact fitVar_wls hfit j
  have hres : ∀ s2 : BfState n k, ResidOf x u.y (bfStore (u.cfgIn hat x) i r.1 r.2 s2) := fun s2 l => by
    simp only [bfStore, MgwrSetup.cfgIn, fitted]
    congr 1
    exact Finset.sum_congr rfl fun m _ => mul_comm _ _
  have hbeta : ∀ (s2 : BfState n k) j, (bfStore (u.cfgIn hat x) i r.1 r.2 s2).betas j i = r.1 j := fun s2 j => by simp [bfStore]
  refine ⟨hres _, ?_, ?_⟩
  · intro m hm
    by_cases hf : s.init i = .Specified
    · rw [if_pos hf] at h1
      cases Res.ok.inj h1
      exact ⟨fun j => by simp [bfStore, hm], rfl, rfl, rfl⟩
    · rw [if_neg hf] at h1
      obtain ⟨b, -, h1⟩ := Res.bind_eq_ok'.1 h1
      cases Res.ok.inj h1
      have hb := (bfSelect_fields (u.cfgIn hat x) i b s).1
      refine ⟨fun j => by simp [bfStore, hm, hb], ?_⟩
      simp only [bfStore, bfSelect]
      split
      · simp [hm]
      · split <;> simp [hm]
  · by_cases hf : s.init i = .Specified
    · rw [if_pos hf] at h1
      cases Res.ok.inj h1
      refine ⟨fun _ => ⟨hf, rfl, rfl⟩, fun hne => absurd hf hne, fun hu w hw j => ?_⟩
      have := hwls hu w hw j
      simp only [stageOf, hbeta]
      exact this
    · rw [if_neg hf] at h1
      obtain ⟨b, hsel, h1⟩ := Res.bind_eq_ok'.1 h1
      cases Res.ok.inj h1
      have hbw : (bfSelect (u.cfgIn hat x) i b s).bw i = b := by
        simp only [bfSelect]
        split
        · simp
        · split <;> simp
      have hsearch := searchIn_chosen (serial := md.SerialSearches) (hv.2.2.2.1 it i) (fun hse j => hse.2 it i j) hd.fits hd.pos (hd.map i) (hd.bound i)
        (hd.range i) hsel
      rw [hbw] at hwls
      refine ⟨fun hfr => absurd hfr hf, fun _ => ?_, ?_⟩
      · simp only [stageOf, bfStore, hbw]
        refine ⟨hsearch, fun hlt => ?_, fun hle => ?_⟩
        · have hgt : |b.mBandwidth - (s.bw i).mBandwidth| > (u.cfgIn hat x).threshold i := hlt
          simp only [bfSelect, hgt, if_true, Function.update_self]
          exact ⟨trivial, hf⟩
        · have hgt : ¬ |b.mBandwidth - (s.bw i).mBandwidth| > (u.cfgIn hat x).threshold i := not_lt.2 hle
          have hrt : (u.cfgIn hat x).retry = u.retry := rfl
          simp only [bfSelect, hgt, if_false, Function.update_self, hrt]
          by_cases hq : s.changeNo i + 1 ≥ u.retry
          · simp only [hq, if_true, Function.update_self]
            exact ⟨trivial, by simpa using hq⟩
          · simp only [hq, if_false, Function.update_self]
            exact ⟨trivial, iff_of_false hf (by simpa using hq)⟩
      · intro hu w hw j
        simp only [stageOf, hbeta]
        simp only [stageOf, bfStore, hbw] at hu hw
        exact hwls hu w hw j

theorem bfVarsIn_swept {u : MgwrSetup n k} {hat : Bool} {md : MgwrModes n k} (hv : md.Valid) {x : Matrix (Fin n) (Fin k) ℝ} {d' : Fin k → CRSDistance}
    {range : Fin k → ℝ × ℝ} {dist : Fin k → Fin n → Fin n → ℝ} (hd : RunData u dist d' range) {it : ℕ} :
    ∀ (is : List (Fin k)) (s s' : BfState n k), is.Pairwise (· < ·) → ResidOf x u.y s → bfVarsIn u hat md x d' range it is s = .ok s' →
      ResidOf x u.y s' ∧ (∀ m, m ∉ is → SameVar m s s') ∧ ∀ i ∈ is, VarSwept u md.SerialSearches dist x i
        (fun l => u.y l - ∑ m ∈ Finset.univ.erase i, x l m * if m ∈ is ∧ m < i then s'.betas l m else s.betas l m) (stageOf s) (stageOf s')
  | [], s, s', _, hs, h => by
    cases Res.ok.inj h
    exact ⟨hs, fun _ _ => ⟨fun _ => rfl, rfl, rfl, rfl⟩, fun _ hi => by cases hi⟩
  | i :: is, s, s', hp, hs, h => by
    rw [bfVarsIn] at h
    obtain ⟨s1, h1, h⟩ := Res.bind_eq_ok'.1 h
    obtain ⟨hlt, hp⟩ := List.pairwise_cons.1 hp
    obtain ⟨a1, a2, a3⟩ := bfVarIn_swept hv hd hs h1
    obtain ⟨b1, b2, b3⟩ := bfVarsIn_swept hv hd is s1 s' hp a1 h
    have hni : i ∉ is := fun hi => lt_irrefl _ (hlt i hi)
    have hsame := b2 i hni
    refine ⟨b1, fun m hm => ?_, fun m hm => ?_⟩
    · rw [List.mem_cons, not_or] at hm
      exact (a2 m hm.1).trans' (b2 m hm.2)
    · rcases List.mem_cons.1 hm with rfl | hm
      · have e : (fun l => u.y l - ∑ q ∈ Finset.univ.erase m, x l q * if q ∈ m :: is ∧ q < m then s'.betas l q else s.betas l q) =
            fun l => u.y l - ∑ q ∈ Finset.univ.erase m, x l q * s.betas l q := by
          funext l
          congr 1
          refine Finset.sum_congr rfl fun q _ => ?_
          rw [if_neg]
          rintro ⟨hq, hqm⟩
          rcases List.mem_cons.1 hq with rfl | hq
          · exact lt_irrefl _ hqm
          · exact absurd (hlt q hq) (not_lt.2 hqm.le)
        rw [e]
        obtain ⟨c1, c2, c3⟩ := a3
        obtain ⟨f1, f2, f3, f4⟩ := hsame
        unfold VarSwept
        simp only [stageOf] at c1 c2 c3 ⊢
        simp only [f1, f2, f3, f4]
        exact ⟨c1, c2, c3⟩
      · have hmi : m ≠ i := fun e => hni (e ▸ hm)
        have him := hlt m hm
        have e : (fun l => u.y l - ∑ q ∈ Finset.univ.erase m, x l q * if q ∈ i :: is ∧ q < m then s'.betas l q else s.betas l q) =
            fun l => u.y l - ∑ q ∈ Finset.univ.erase m, x l q * if q ∈ is ∧ q < m then s'.betas l q else s1.betas l q := by
          funext l
          congr 1
          refine Finset.sum_congr rfl fun q _ => ?_
          by_cases hq : q = i
          · subst hq
            rw [if_pos ⟨List.mem_cons_self, him⟩, if_neg fun hh => hni hh.1, hsame.1]
          · rw [(a2 q hq).1 l]
            simp only [List.mem_cons, hq, false_or]
        rw [e]
        obtain ⟨c1, c2, c3⟩ := b3 m hm
        obtain ⟨f1, f2, f3, f4⟩ := a2 m hmi
        unfold VarSwept
        simp only [stageOf, f2, f3, f4] at c1 c2 c3 ⊢
        exact ⟨c1, c2, c3⟩

theorem sweepResponse_split (x : Matrix (Fin n) (Fin k) ℝ) (y : Fin n → ℝ) (B B' : Matrix (Fin n) (Fin k) ℝ) (i : Fin k) :
    (fun l => y l - ∑ m ∈ Finset.univ.erase i, x l m * if m ∈ List.finRange k ∧ m < i then B' l m else B l m) = sweepResponse x y B B' i := by
  funext l
  unfold sweepResponse
  rw [sub_sub]
  congr 1
  have e : Finset.univ.erase i = (Finset.univ.filter fun m : Fin k => m < i) ∪ Finset.univ.filter fun m : Fin k => i < m := by
    ext m
    simp only [Finset.mem_erase, Finset.mem_univ, and_true, Finset.mem_union, Finset.mem_filter, true_and]
    exact ne_iff_lt_or_gt
  rw [e, Finset.sum_union (Finset.disjoint_filter.2 fun m _ h1 h2 => lt_asymm h1 h2)]
  congr 1
  · refine Finset.sum_congr rfl fun m hm => ?_
    rw [if_pos ⟨List.mem_finRange m, (Finset.mem_filter.1 hm).2⟩]
  · refine Finset.sum_congr rfl fun m hm => ?_
    rw [if_neg fun hh => lt_asymm hh.2 (Finset.mem_filter.1 hm).2]

/-! ## The outer loop -/

theorem bfLoopIn_stages {u : MgwrSetup n k} {hat : Bool} {md : MgwrModes n k} {x : Matrix (Fin n) (Fin k) ℝ} {d' : Fin k → CRSDistance}
    {range : Fin k → ℝ × ℝ} :
    ∀ (m it : ℕ) (go : Bool) (r0 : ℝ) (s : BfState n k) (r : BfState n k × ℝ), r0 = rss x u.y s.betas →
      bfLoopIn u hat md x d' range m it go r0 s = .ok r →
      ∃ (T : ℕ) (σ : ℕ → BfState n k), σ 0 = s ∧ σ T = r.1 ∧ r.2 = rss x u.y r.1.betas ∧ T ≤ m ∧
        (∀ t < T, bfVarsIn u hat md x d' range (it + t) (List.finRange k) (σ t) = .ok (σ (t + 1))) ∧ (0 < T → go = true) ∧
        (∀ t, t + 1 < T → bfContinue u.critType u.critThreshold (rss x u.y (σ t).betas) (rss x u.y (σ (t + 1)).betas) = true) ∧
        (T < m → (T = 0 ∧ go = false) ∨ ∃ t, T = t + 1 ∧ bfContinue u.critType u.critThreshold (rss x u.y (σ t).betas) (rss x u.y (σ T).betas) = false)
  | 0, it, go, r0, s, r, hr, h => by
    rw [bfLoopIn] at h
    cases Res.ok.inj h
    exact ⟨0, fun _ => s, rfl, rfl, hr, le_rfl, fun t ht => absurd ht (Nat.not_lt_zero t), fun h => absurd h (lt_irrefl 0),
      fun t ht => absurd ht (Nat.not_lt_zero _), fun h => absurd h (lt_irrefl 0)⟩
  | m + 1, it, go, r0, s, r, hr, h => by
    rw [bfLoopIn] at h
    by_cases hg : go = false
    · rw [if_pos hg] at h
      cases Res.ok.inj h
      exact ⟨0, fun _ => s, rfl, rfl, hr, Nat.zero_le _, fun t ht => absurd ht (Nat.not_lt_zero t), fun h => absurd h (lt_irrefl 0),
        fun t ht => absurd ht (Nat.not_lt_zero _), fun _ => Or.inl ⟨rfl, hg⟩⟩
    · rw [if_neg hg] at h
      obtain ⟨s1, h1, h⟩ := Res.bind_eq_ok'.1 h
      obtain ⟨T, σ, a1, a2, a3, a4, a5, a6, a7, a8⟩ := bfLoopIn_stages m (it + 1) _ _ s1 r rfl h
      refine ⟨T + 1, fun t => match t with | 0 => s | t + 1 => σ t, rfl, a2, a3, Nat.succ_le_succ a4, ?_, fun _ => by simpa using hg, ?_, ?_⟩
      · intro t ht
        cases t with
        | zero => simpa [a1] using h1
        | succ t =>
          have := a5 t (Nat.lt_of_succ_lt_succ ht)
          rw [show it + (t + 1) = it + 1 + t by omega]
          exact this
      · intro t ht
        cases t with
        | zero =>
          have := a6 (by omega)
          simp only [a1, ← hr]
          exact this
        | succ t => exact a7 t (by omega)
      · intro hT
        refine Or.inr ⟨T, rfl, ?_⟩
        rcases a8 (by omega) with ⟨rfl, hgo⟩ | ⟨t, rfl, hgo⟩
        · simp only [a1, ← hr]
          exact hgo
        · exact hgo

theorem mgwrGoesOn_iff (t : BackFitCrit) (thr r0 r1 : ℝ) : bfContinue t thr r0 r1 = true ↔ GoesOn t thr r0 r1 := bfContinue_iff t thr r0 r1

theorem bfLoopIn_resid {u : MgwrSetup n k} {hat : Bool} {md : MgwrModes n k} (hv : md.Valid) {x : Matrix (Fin n) (Fin k) ℝ} {d' : Fin k → CRSDistance}
    {range : Fin k → ℝ × ℝ} {dist : Fin k → Fin n → Fin n → ℝ} (hd : RunData u dist d' range) {it T : ℕ} {σ : ℕ → BfState n k}
    (h0 : ResidOf x u.y (σ 0)) (h : ∀ t < T, bfVarsIn u hat md x d' range (it + t) (List.finRange k) (σ t) = .ok (σ (t + 1))) :
    ∀ t, t ≤ T → ResidOf x u.y (σ t)
  | 0, _ => h0
  | t + 1, ht => (bfVarsIn_swept hv hd _ _ _ (List.pairwise_lt_finRange k) (bfLoopIn_resid hv hd h0 h t (Nat.le_of_succ_le ht)) (h t ht)).1

theorem backfittingIn_spec {u : MgwrSetup n k} {hat : Bool} {md : MgwrModes n k} (hv : md.Valid) {x : Matrix (Fin n) (Fin k) ℝ} {d' : Fin k → CRSDistance}
    {range : Fin k → ℝ × ℝ} {dist : Fin k → Fin n → Fin n → ℝ} (hd : RunData u dist d' range) (hthr : u.critThreshold < dblMax) {s : BfState n k}
    (h0 : ResidOf x u.y s) {r : BfState n k × ℝ} (h : backfittingIn u hat md x d' range s = .ok r) :
    ∃ (T : ℕ) (σ : ℕ → BfState n k), σ 0 = s ∧ σ T = r.1 ∧ r.2 = residualSS x u.y r.1.betas ∧
      IsBackFitting u md.SerialSearches dist x (fun t => stageOf (σ t)) T := by
  obtain ⟨T, σ, a1, a2, a3, a4, a5, a6, a7, a8⟩ := bfLoopIn_stages _ _ _ _ _ _ rfl h
  have hres := bfLoopIn_resid hv hd (a1.symm ▸ h0) a5
  refine ⟨T, σ, a1, a2, by rw [a3, rss_residualSS], a4, fun t ht i => ?_, fun t ht => ?_, fun hT => ?_⟩
  · obtain ⟨-, -, hsw⟩ := bfVarsIn_swept hv hd _ _ _ (List.pairwise_lt_finRange k) (hres t ht.le) (a5 t ht)
    have := hsw i (List.mem_finRange i)
    rw [sweepResponse_split] at this
    exact this
  · have := a7 t ht
    rw [mgwrGoesOn_iff, rss_residualSS, rss_residualSS] at this
    exact this
  · rcases a8 hT with ⟨-, hgo⟩ | ⟨t, ht, hgo⟩
    · simp at hgo
      linarith
    · refine ⟨t, ht, fun hh => ?_⟩
      rw [← rss_residualSS, ← rss_residualSS, ← mgwrGoesOn_iff] at hh
      simp only [stageOf] at hh
      rw [hgo] at hh
      cases hh

/-! ## The whole run -/

theorem residOf_init (u : MgwrSetup n k) (x : Matrix (Fin n) (Fin k) ℝ) (g : GWRReport n k) (bw : Fin k → BandwidthWeight) :
    ResidOf x u.y (bfInitIn u x g bw) := fun l => by
  simp only [bfInitIn, fitted]
  congr 1
  exact Finset.sum_congr rfl fun m _ => mul_comm _ _

/-- The parts of a completed run. -/
theorem mgwrRunIn_ok {u : MgwrSetup n k} {hat : Bool} {md : MgwrModes n k} {o : MgwrReport n k} (h : mgwrRunIn u hat md = .ok o) :
    ∃ (hk : 0 < k) (range : Fin k → ℝ × ℝ) (bw : Fin k → BandwidthWeight) (r : BfState n k × ℝ),
      let x := centrePredictors u.hasIntercept u.centred u.x
      let d' := fun i => (⟨(u.dist i).mGeographic, some (u.coords, u.coords)⟩ : CRSDistance)
      gwrAutoRun (u.approach ⟨0, hk⟩) md.search0 md.fit0 u.dist0 u.bw0 u.lower u.upper u.coords x u.y (hat || decide (n < 8192)) hat =
        .ok (o.search0, o.fit0) ∧
      (∀ i, mgwrDistRange (u.init i) (d' i) = .ok (range i)) ∧
      (∀ i, (if u.init i = .Null then (u.searchIn x d' range i u.y (u.bw i) (md.start i)).out else .ok (u.bw i)) = .ok (bw i)) ∧
      backfittingIn u hat md x d' range (bfInitIn u x o.fit0 bw) = .ok r ∧ o.out.betas = r.1.betas ∧ o.out.se = o.fit0.se ∧ o.out.bw = r.1.bw ∧
      o.out.diagnostic = mgwrDiagnostic u.y (if hat = true then ![trace r.1.s0, trace (r.1.s0 * r.1.s0ᵀ)] else 0) r.2 := by
  unfold mgwrRunIn at h
  obtain ⟨c, hc, h⟩ := Res.bind_eq_ok'.1 h
  obtain ⟨rg, h1, h⟩ := Res.bind_eq_ok'.1 h
  obtain ⟨d', h2, h⟩ := Res.bind_eq_ok'.1 h
  obtain ⟨range, h3, h⟩ := Res.bind_eq_ok'.1 h
  obtain ⟨bw, h4, h⟩ := Res.bind_eq_ok'.1 h
  obtain ⟨r, h5, h⟩ := Res.bind_eq_ok'.1 h
  cases Res.ok.inj h
  by_cases hk : 0 < k
  · rw [dif_pos hk] at hc
    cases Res.ok.inj hc
    have hd : d' = fun i => (⟨(u.dist i).mGeographic, some (u.coords, u.coords)⟩ : CRSDistance) := by
      funext i
      exact (bindLocations_eq_ok.1 (Res.tabulate_eq_ok.1 h2 i)).2.2
    subst hd
    exact ⟨hk, range, bw, r, h1, Res.tabulate_eq_ok.1 h3, Res.tabulate_eq_ok.1 h4, h5, rfl, rfl, rfl, rfl⟩
  · rw [dif_neg hk] at hc
    cases hc

/-- **C135 (run).** A completed run of multiscale regression, in any mode, for planar or geographic coordinates and every kind of bandwidth, performs the
published algorithm: it centres the predictors; it starts from the geographically weighted regression whose bandwidth the library selects by the criterion
of the first variable in the default range; it searches start bandwidths for the variables for which the user gave none; it sweeps over the variables,
each time choosing the bandwidth of a variable for what the others leave unexplained and regressing this on the variable alone; it stops when the residual
sum of squares changes too little or after the maximal number of sweeps. The coefficients and bandwidths it reports are those reached. -/
theorem C135_run (u : MgwrSetup n k) (hat : Bool) (md : MgwrModes n k) (hv : md.Valid) (hc : FitsData u.coords n) (hn : 0 < n)
    (dist0 : Fin n → Fin n → ℝ) (hd0 : IsMapDistance u.dist0.mGeographic u.coords u.coords dist0)
    (dist : Fin k → Fin n → Fin n → ℝ) (hd : ∀ i, IsMapDistance (u.dist i).mGeographic u.coords u.coords (dist i))
    (hthr : u.critThreshold < dblMax) (o : MgwrReport n k) (h : mgwrRunIn u hat md = .ok o) :
    ∃ x, Centred u x ∧
      (∃ (hk : 0 < k) (l v : ℝ), DefaultRange u.bw0.mAdaptive dist0 l v ∧
        StartsInRange u.bw0.mAdaptive (u.lower.getD l) (u.upper.getD v) (o.search0.evals.map Eval.x) ∧
        IsSearchedFit (u.approach ⟨0, hk⟩) (∀ j, md.search0 j = .serial) u.bw0 dist0 x u.y (hat || decide (n < 8192)) hat o.search0 o.fit0) ∧
      ∃ (s : ℕ → Stage n k) (T : ℕ), (s 0).B = o.fit0.betas ∧
        (∀ i, (s 0).quiet i = 0 ∧ ((s 0).frozen i ↔ u.init i = .Specified) ∧
          (u.init i = .Null → IsSearched u md.SerialSearches dist x i u.y (u.bw i) ((s 0).bw i)) ∧
          (u.init i ≠ .Null → (s 0).bw i = u.bw i)) ∧
        IsBackFitting u md.SerialSearches dist x s T ∧ o.out.betas = (s T).B ∧ o.out.bw = (s T).bw ∧
        o.out.diagnostic.RSS = residualSS x u.y o.out.betas := by
  obtain ⟨hk, range, bw, r, h1, h2, h3, h4, e1, -, e3, e4⟩ := mgwrRunIn_ok h
  have hx := centrePredictors_centred u
  generalize centrePredictors u.hasIntercept u.centred u.x = x at *
  have hrd : RunData u dist (fun i => ⟨(u.dist i).mGeographic, some (u.coords, u.coords)⟩) range := ⟨hc, hn, hd, fun _ => rfl, h2⟩
  obtain ⟨T, σ, a1, a2, a3, a4⟩ := backfittingIn_spec hv hrd hthr (residOf_init u x o.fit0 bw) h4
  refine ⟨x, hx, ?_, fun t => stageOf (σ t), T, by simp [a1, stageOf, bfInitIn], fun i => ?_, a4, by rw [e1, ← a2]; rfl, by rw [e3, ← a2]; rfl, ?_⟩
  · have hfit := C119_auto_fit _ _ hv.1 _ hv.2.1 u.dist0.mGeographic u.dist0.mParameter u.bw0 u.lower u.upper u.coords hc dist0 hd0 x u.y _ _ _ _ h1
    unfold gwrAutoRun at h1
    obtain ⟨d', hb, h1⟩ := Res.bind_eq_ok'.1 h1
    obtain ⟨-, -, rfl⟩ := bindLocations_eq_ok.1 hb
    obtain ⟨r', hr, h1⟩ := Res.bind_eq_ok'.1 h1
    obtain ⟨b, ho, h1⟩ := Res.bind_eq_ok'.1 h1
    obtain ⟨g', hg, h1⟩ := Res.bind_eq_ok'.1 h1
    simp only [Res.ok.injEq, Prod.mk.injEq] at h1
    obtain ⟨rfl, -⟩ := h1
    obtain ⟨l, v, hr1, hr2⟩ := C127_basic_range _ _ _ _ _ _ _ hc hn dist0 hd0 x u.y _ hr
    exact ⟨hk, l, v, hr1, hr2, hfit⟩
  · simp only [a1, stageOf, bfInitIn]
    refine ⟨rfl, trivial, fun hN => ?_, fun hN => ?_⟩
    · have := h3 i
      rw [if_pos hN] at this
      exact searchIn_chosen (hv.2.2.1 i) (fun hse j => hse.1 i j) hc hn (hd i) rfl (h2 i) this
    · have := h3 i
      rw [if_neg hN] at this
      exact (Res.ok.inj this).symm
  · rw [e4, e1]
    exact a3

/-! ## Diagnostics -/

theorem bfVarIn_hat {u : MgwrSetup n k} {md : MgwrModes n k} (hv : md.Valid) {x : Matrix (Fin n) (Fin k) ℝ} {d' : Fin k → CRSDistance}
    {range : Fin k → ℝ × ℝ} {it : ℕ} {i : Fin k} {s s' : BfState n k} (hs : HatConsistent x u.y s) (h : bfVarIn u true md x d' range it i s = .ok s') :
    HatConsistent x u.y s' := by
  unfold bfVarIn at h
  obtain ⟨s1, h1, h⟩ := Res.bind_eq_ok'.1 h
  obtain ⟨r, h2, h⟩ := Res.bind_eq_ok'.1 h
  cases Res.ok.inj h
  have hf : s1.betas = s.betas ∧ s1.resid = s.resid ∧ s1.s0 = s.s0 ∧ s1.sArr = s.sArr := by
    split at h1
    · cases Res.ok.inj h1; exact ⟨rfl, rfl, rfl, rfl⟩
    · obtain ⟨b, -, h1⟩ := Res.bind_eq_ok'.1 h1
      cases Res.ok.inj h1
      exact bfSelect_fields _ i b s
  obtain ⟨f1, f2, f3, f4⟩ := hf
  have hs' : HatConsistent x u.y s1 :=
    ⟨by rw [f1, f4]; exact hs.component, by rw [f3, f4]; exact hs.total, by rw [f1, f3]; exact hs.fit, by rw [f1, f2]; exact hs.resid⟩
  obtain ⟨W, -, hfit⟩ := fitVarIn_ok (hv.2.2.2.2 it i) h2
  refine hat_store (u.cfgIn true x) rfl i s1 hs' _ _ fun j => ?_
  have : partialResid (u.cfgIn true x) i s1 = partialResid (u.cfgIn true x) i s := by unfold partialResid; rw [f1, f2]
  rw [this]
  exact fitVar_hat hfit j

theorem bfVarsIn_hat {u : MgwrSetup n k} {md : MgwrModes n k} (hv : md.Valid) {x : Matrix (Fin n) (Fin k) ℝ} {d' : Fin k → CRSDistance}
    {range : Fin k → ℝ × ℝ} {it : ℕ} : ∀ (is : List (Fin k)) (s s' : BfState n k), HatConsistent x u.y s →
      bfVarsIn u true md x d' range it is s = .ok s' → HatConsistent x u.y s'
  | [], s, s', hs, h => by cases Res.ok.inj h; exact hs
  | i :: is, s, s', hs, h => by
    rw [bfVarsIn] at h
    obtain ⟨s1, h1, h⟩ := Res.bind_eq_ok'.1 h
    exact bfVarsIn_hat hv is s1 s' (bfVarIn_hat hv hs h1) h

theorem bfLoopIn_hat {u : MgwrSetup n k} {md : MgwrModes n k} (hv : md.Valid) {x : Matrix (Fin n) (Fin k) ℝ} {d' : Fin k → CRSDistance}
    {range : Fin k → ℝ × ℝ} : ∀ (m it : ℕ) (go : Bool) (r0 : ℝ) (s : BfState n k) (r : BfState n k × ℝ), HatConsistent x u.y s →
      bfLoopIn u true md x d' range m it go r0 s = .ok r → HatConsistent x u.y r.1
  | 0, it, go, r0, s, r, hs, h => by rw [bfLoopIn] at h; cases Res.ok.inj h; exact hs
  | m + 1, it, go, r0, s, r, hs, h => by
    rw [bfLoopIn] at h
    split at h
    · cases Res.ok.inj h; exact hs
    · obtain ⟨s1, h1, h⟩ := Res.bind_eq_ok'.1 h
      exact bfLoopIn_hat hv m _ _ _ s1 r (bfVarsIn_hat hv _ _ _ hs h1) h

/-- The fit of the initial regression in any mode stores what the serial one stores. -/
theorem finish_stored {x : Matrix (Fin n) (Fin k) ℝ} {y : Fin n → ℝ} {ex : Exec n} (hex : ex.Valid) {d' : CRSDistance} {b : BandwidthWeight}
    {g : GWRReport n k} (h : gwrFinish ex d' b x y true true = .ok g) :
    ∃ W a, fitCoreSerial x y W 0 n true true NoStop = .ok (a, false) ∧ g.betas = a.betas ∧ g.s = a.s ∧ g.c = a.c := by
  unfold gwrFinish at h
  obtain ⟨W, -, h⟩ := Res.bind_eq_ok'.1 h
  obtain ⟨a, ha, h⟩ := Res.bind_eq_ok'.1 h
  cases Res.ok.inj h
  refine ⟨W, ?_⟩
  cases ex with
  | serial =>
    obtain ⟨⟨p, t⟩, hp, ha⟩ := Res.bind_eq_ok'.1 (show (fitCoreSerial x y W 0 n true true fun _ => false).bind (fun p => .ok p.1) = .ok a from ha)
    cases Res.ok.inj ha
    have ht : t = false := serialFor_nostop _ _ _ hp
    subst ht
    exact ⟨p, hp, rfl, rfl, rfl⟩
  | omp evs =>
    obtain ⟨p, hp, ha⟩ := Res.bind_eq_ok'.1 (show (fitCoreOmp x y W 0 true true (fun _ => false) evs).bind (fun p => .ok p.1) = .ok a from ha)
    cases Res.ok.inj ha
    have hs : Schedule (workRange n 0 n) evs := by rw [workRange_all]; exact hex
    obtain ⟨q1, q2⟩ := C27_fit_parallel_eq_serial x y W 0 n true true evs hs
    by_cases hall : ∀ i ∈ workRange n 0 n, ∃ r, localFit x y (W i) (x i) = .ok r
    · have hr : ∀ i ∈ workRange n 0 n, localFit x y (W i) (x i) = .ok (fitAt x y W i) := fun i hi => by
        obtain ⟨r, hr⟩ := hall i hi
        exact localFit_fitAt (localFit_eq_ok.1 hr).1
      have e1 : fitCoreSerial x y W 0 n true true NoStop = _ := serialFor_ok (fitAt x y W) _ 0 _ (fun _ _ => rfl) hr
      obtain ⟨a', ha', b1, -, -, -, b5, b6⟩ := q1 _ e1
      cases Res.ok.inj (hp.symm.trans ha')
      exact ⟨_, e1, b1, b5 rfl, b6 rfl⟩
    · exfalso
      push Not at hall
      obtain ⟨i, him, hi⟩ := hall
      have hf := omp_fail (g := fun i => localFit x y (W i) (x i)) (upd := fitUpdOmp 0 true true) (stop := NoStop)
        (fun _ => rfl) FitAccOmp.zero (nodup_workRange n 0 n) hs i him hi
      simp only [fitCoreOmp] at hp
      simp [hf] at hp

/-- **C135 (diagnostics).** With the hat matrix, in any mode, the diagnostics of a completed run are those of its coefficients: a matrix turns the response
into the fitted values, and the effective numbers of parameters and degrees of freedom, the corrected Akaike criterion and the (adjusted) coefficient of
determination are the textbook functions of it and of the residual sum of squares. -/
theorem C135_diagnostics (u : MgwrSetup n k) (md : MgwrModes n k) (hv : md.Valid) (o : MgwrReport n k) (h : mgwrRunIn u true md = .ok o) :
    ∃ x, Centred u x ∧ ∃ S : Matrix (Fin n) (Fin n) ℝ, (∀ j, ∑ i, x j i * o.out.betas j i = (S *ᵥ u.y) j) ∧
      o.out.diagnostic.RSS = ∑ j, (u.y j - (S *ᵥ u.y) j) ^ 2 ∧
      o.out.diagnostic.ENP = 2 * trace S - trace (S * Sᵀ) ∧ o.out.diagnostic.EDF = n - 2 * trace S + trace (S * Sᵀ) ∧
      (0 < o.out.diagnostic.RSS → trace S ≠ n - 2 → o.out.diagnostic.AICc = .ok (aiccFormula n o.out.diagnostic.RSS (trace S))) ∧
      ∀ tss, tss = ∑ j, (u.y j - (∑ l, u.y l) / n) ^ 2 → tss ≠ 0 → o.out.diagnostic.RSquare = .ok (1 - o.out.diagnostic.RSS / tss) ∧
        (o.out.diagnostic.EDF ≠ 1 →
          o.out.diagnostic.RSquareAdjust = .ok (1 - o.out.diagnostic.RSS / tss * (n - 1) / (o.out.diagnostic.EDF - 1))) := by
  obtain ⟨hk, range, bw, r, h1, h2, h3, h4, e1, -, e3, e4⟩ := mgwrRunIn_ok h
  have hx := centrePredictors_centred u
  generalize centrePredictors u.hasIntercept u.centred u.x = x at *
  unfold gwrAutoRun at h1
  obtain ⟨d', hb, h1⟩ := Res.bind_eq_ok'.1 h1
  obtain ⟨r', hr, h1⟩ := Res.bind_eq_ok'.1 h1
  obtain ⟨b, ho, h1⟩ := Res.bind_eq_ok'.1 h1
  obtain ⟨g', hg, h1⟩ := Res.bind_eq_ok'.1 h1
  simp only [Res.ok.injEq, Prod.mk.injEq] at h1
  obtain ⟨-, hgo⟩ := h1
  rw [hgo, Bool.true_or] at hg
  obtain ⟨W, a, hW, g1, g2, g3⟩ := finish_stored hv.2.1 hg
  have hinit : HatConsistent x u.y (bfInitIn u x o.fit0 bw) := by
    have := hat_init (u.cfgIn true x) W a hW u.init bw
    unfold bfInitIn
    rw [g1, g2, g3]
    exact this
  have hs := bfLoopIn_hat hv _ _ _ _ _ _ hinit h4
  obtain ⟨T, σ, -, -, hrss, -⟩ := bfLoopIn_stages _ _ _ _ _ _ rfl h4
  refine ⟨x, hx, r.1.s0, by rw [e1]; exact hs.fit, ?_, by rw [e4]; rfl, by rw [e4]; rfl, ?_⟩
  · rw [e4]
    simp only [mgwrDiagnostic]
    rw [hrss]
    simp only [rss, fitted]
    refine Finset.sum_congr rfl fun j _ => ?_
    rw [← hs.fit j, sq]
    simp only [mul_comm]
  rw [e4]
  simp only [if_true]
  refine ⟨fun hp ht => ?_, fun tss htss h0 => ?_⟩
  · have hp' : 0 < r.2 := hp
    have hn : (0 : ℝ) < n := by
      rcases Nat.eq_zero_or_pos n with hz | hz
      · subst hz; rw [hrss] at hp'; simp [rss] at hp'
      · exact_mod_cast hz
    have hd : (n : ℝ) - 2 - trace r.1.s0 ≠ 0 := fun e => ht (by linarith)
    simp only [mgwrDiagnostic, fdiv, flog, Matrix.cons_val_zero, hn.ne', hd, if_false, Res.bind, not_le.2 (div_pos hp' hn), aiccFormula]
  · have ht : ∑ i, (u.y i - meanVec u.y) * (u.y i - meanVec u.y) = tss := by rw [htss]; simp only [sq, meanVec]
    constructor
    · simp only [mgwrDiagnostic, ht, fdiv, h0, if_false, Res.bind]
    · intro hne
      have hne' : (n : ℝ) - 2 * trace r.1.s0 + trace (r.1.s0 * r.1.s0ᵀ) - 1 ≠ 0 := fun e => hne (by
        simp only [mgwrDiagnostic, Matrix.cons_val_zero, Matrix.cons_val_one]; linarith)
      simp only [mgwrDiagnostic, ht, fdiv, h0, if_false, Res.bind, Matrix.cons_val_zero, Matrix.cons_val_one, hne', sub_sub_cancel]

end Verif.Props

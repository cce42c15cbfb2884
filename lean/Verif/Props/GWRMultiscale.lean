import Verif.Model.GWRMultiscale
import Verif.Props.GWRBasic
import Verif.Props.BandwidthSelector
import Verif.Lemmas.Rows
import Verif.Props.GWRDefinition
import Mathlib.Tactic.NoncommRing
import Mathlib.Data.List.TakeWhile

/-!
# Properties of multiscale GWR (C34, C35, C64, C65)
-/

namespace Verif.Props
open Verif Verif.Model Verif.Spec Matrix Classical

variable {n k T : ℕ}

/-! ## Generic invariants of the back-fitting loops -/

theorem bfVars_inv (c : MgwrCfg n k) (e : BfEnv n k) (it : ℕ) (I : List (BfState n k) → BfState n k → Prop)
    (hstep : ∀ i s log p, I log s → bfVar c e it i s = .ok p → I (log ++ [p.1]) p.1) :
    ∀ (is : List (Fin k)) (s : BfState n k) (log : List (BfState n k)) (r : BfState n k × List (BfState n k)), I log s →
      bfVars c e it is s log = .ok r → I r.2 r.1
  | [], s, log, r, h, hr => by simp only [bfVars, Res.ok.injEq] at hr; subst hr; exact h
  | i :: is, s, log, r, h, hr => by
    simp only [bfVars] at hr
    rw [Res.bind_eq_ok'] at hr
    obtain ⟨p, hp, hr⟩ := hr
    have h' := hstep i s log p h hp
    split at hr
    · cases Res.ok.inj hr; exact h'
    · exact bfVars_inv c e it I hstep is p.1 _ r h' hr

theorem bfLoop_inv (c : MgwrCfg n k) (e : BfEnv n k) (I : List (BfState n k) → BfState n k → Prop)
    (hstep : ∀ it i s log p, I log s → bfVar c e it i s = .ok p → I (log ++ [p.1]) p.1) :
    ∀ (m it : ℕ) (go : Bool) (r0 : ℝ) (s : BfState n k) (log : List (BfState n k)) (hist : List ℝ) (r : BfResult n k), I log s →
      bfLoop c e m it go r0 s log hist = .ok r → I r.log r.state
  | 0, it, go, r0, s, log, hist, r, h, hr => by simp only [bfLoop, Res.ok.injEq] at hr; subst hr; exact h
  | m + 1, it, go, r0, s, log, hist, r, h, hr => by
    simp only [bfLoop] at hr
    split at hr
    · cases Res.ok.inj hr; exact h
    · split at hr
      · cases Res.ok.inj hr; exact h
      · rw [Res.bind_eq_ok'] at hr
        obtain ⟨p, hp, hr⟩ := hr
        exact bfLoop_inv c e I hstep m _ _ _ _ _ _ r (bfVars_inv c e it I (hstep it) _ _ _ p h hp) hr

/-- An invariant of single states holds of every state reached. -/
theorem backfitting_inv (c : MgwrCfg n k) (e : BfEnv n k) (P : BfState n k → Prop)
    (hstep : ∀ it i s p, P s → bfVar c e it i s = .ok p → P p.1) (s : BfState n k) (r : BfResult n k) (h : P s)
    (hr : backfitting c e s = .ok r) : P r.state ∧ ∀ t ∈ r.log, P t := by
  refine bfLoop_inv c e (fun log s => P s ∧ ∀ t ∈ log, P t) ?_ _ _ _ _ _ _ _ r ⟨h, by simpa using h⟩ hr
  intro it i s log p hI hp
  have := hstep it i s p hI.1 hp
  refine ⟨this, fun t ht => ?_⟩
  rcases List.mem_append.1 ht with h | h
  · exact hI.2 t h
  · simp only [List.mem_singleton] at h; subst h; exact this

/-- A transitive relation between a state and the next one holds between any earlier and any later state. -/
theorem backfitting_rel (c : MgwrCfg n k) (e : BfEnv n k) (R : BfState n k → BfState n k → Prop) (hrefl : ∀ s, R s s)
    (htrans : ∀ a b d, R a b → R b d → R a d) (hstep : ∀ it i s p, bfVar c e it i s = .ok p → R s p.1) (s : BfState n k)
    (r : BfResult n k) (hr : backfitting c e s = .ok r) : r.log.Pairwise R ∧ ∀ t ∈ r.log, R t r.state := by
  refine bfLoop_inv c e (fun log s => log.Pairwise R ∧ ∀ t ∈ log, R t s) ?_ _ _ _ _ _ _ _ r
    ⟨by simp, by simpa using hrefl s⟩ hr
  intro it i s log p hI hp
  have := hstep it i s p hp
  refine ⟨List.pairwise_append.2 ⟨hI.1, by simp, fun a ha b hb => ?_⟩, fun t ht => ?_⟩
  · simp only [List.mem_singleton] at hb; subst hb; exact htrans _ _ _ (hI.2 a ha) this
  · rcases List.mem_append.1 ht with h | h
    · exact htrans _ _ _ (hI.2 t h) this
    · simp only [List.mem_singleton] at h; subst h; exact hrefl _

/-! ## Fitting one variable -/

/-- Row `i` of a one-variable fit: not reached, or the local weighted regression on that variable. -/
def VarRow (x : Matrix (Fin n) (Fin 1) ℝ) (y : Fin n → ℝ) (W : Fin n → Fin n → ℝ) (b : Fin n → ℝ) (S : Matrix (Fin n) (Fin n) ℝ)
    (i : Fin n) : Prop := ∃ lf, localFit x y (W i) (x i) = .ok lf ∧ b i = lf.beta 0 ∧ S i = lf.si

theorem varUpd_row (x : Matrix (Fin n) (Fin 1) ℝ) (y : Fin n → ℝ) (W : Fin n → Fin n → ℝ) (i : Fin n) (a : VarAcc n)
    (ha : ∀ j, (a.beta j = 0 ∧ a.S j = 0) ∨ VarRow x y W a.beta a.S j) :
    ∀ j, ((varUpd i (localFit x y (W i) (x i)) a).beta j = 0 ∧ (varUpd i (localFit x y (W i) (x i)) a).S j = 0) ∨
      VarRow x y W (varUpd i (localFit x y (W i) (x i)) a).beta (varUpd i (localFit x y (W i) (x i)) a).S j := by
  intro j
  rcases localFit_cases x y (W i) (x i) with ⟨lf, h⟩ | h
  · rw [h]
    simp only [varUpd]
    by_cases hj : j = i
    · subst hj
      exact Or.inr ⟨lf, h, by simp, Function.update_self (β := fun _ => Fin n → ℝ) ..⟩
    · have e : (Function.update a.S i lf.si : Matrix _ _ ℝ) j = a.S j := Function.update_of_ne (β := fun _ => Fin n → ℝ) hj _ _
      rcases ha j with h' | ⟨lf', h1, h2, h3⟩
      · left; exact ⟨by rw [Function.update_of_ne hj]; exact h'.1, by rw [e]; exact h'.2⟩
      · right; exact ⟨lf', h1, by rw [Function.update_of_ne hj]; exact h2, by rw [e]; exact h3⟩
  · rw [h]; exact ha j

theorem serialFor_inv {ι ρ σ : Type} {g : ι → Res ρ} {upd : ι → ρ → σ → σ} {stop : ℕ → Bool} (P : σ → Prop)
    (hstep : ∀ i r s, P s → g i = .ok r → P (upd i r s)) :
    ∀ (is : List ι) (p : ℕ) (s : σ) (r : σ × Bool), P s → serialFor g upd stop is p s = .ok r → P r.1
  | [], p, s, r, h, hr => by simp only [serialFor, Res.ok.injEq] at hr; subst hr; exact h
  | i :: is, p, s, r, h, hr => by
    simp only [serialFor] at hr
    split at hr
    · cases Res.ok.inj hr; exact h
    · rw [Res.bind_eq_ok'] at hr
      obtain ⟨q, h1, h2⟩ := hr
      exact serialFor_inv P hstep is _ _ r (hstep i q s h h1) h2

theorem fitVar_rows {x : Matrix (Fin n) (Fin 1) ℝ} {y : Fin n → ℝ} {W : Fin n → Fin n → ℝ} {stop : ℕ → Bool}
    {r : (Fin n → ℝ) × Matrix (Fin n) (Fin n) ℝ} (h : fitVarCoreSerial x y W stop = .ok r) :
    ∀ j, (r.1 j = 0 ∧ r.2 j = 0) ∨ VarRow x y W r.1 r.2 j := by
  unfold fitVarCoreSerial at h
  rw [Res.bind_eq_ok'] at h
  obtain ⟨p, h1, h2⟩ := h
  split at h2
  · cases Res.ok.inj h2
    exact serialFor_inv (P := fun a : VarAcc n => ∀ j, (a.beta j = 0 ∧ a.S j = 0) ∨ VarRow x y W a.beta a.S j)
      (fun i q s hs hq => by cases Res.ok.inj hq; exact varUpd_row x y W i s hs) _ _ _ p
      (fun j => Or.inl ⟨rfl, rfl⟩) h1
  · cases h2

/-- The fold of the loop body over any list of distinct locations. -/
theorem varFold (g : Fin n → Res (LocalFit n 1)) : ∀ (l : List (Fin n)) (a : VarAcc n), l.Nodup →
    ((l.foldl (fun s i => varUpd i (g i) s) a).success = true ↔ a.success = true ∧ ∀ i ∈ l, ∃ lf, g i = .ok lf) ∧
    ∀ j, (j ∉ l → (l.foldl (fun s i => varUpd i (g i) s) a).beta j = a.beta j ∧
        (l.foldl (fun s i => varUpd i (g i) s) a).S j = a.S j) ∧
      (j ∈ l → ∀ lf, g j = .ok lf → (l.foldl (fun s i => varUpd i (g i) s) a).beta j = lf.beta 0 ∧
        (l.foldl (fun s i => varUpd i (g i) s) a).S j = lf.si)
  | [], a, _ => by simp
  | i :: l, a, hnd => by
    rw [List.nodup_cons] at hnd
    obtain ⟨h1, h2⟩ := varFold g l (varUpd i (g i) a) hnd.2
    simp only [List.foldl_cons]
    refine ⟨?_, fun j => ⟨fun hj => ?_, fun hj lf hlf => ?_⟩⟩
    · rw [h1]
      cases hg : g i <;> simp [varUpd, hg]
    · rw [List.mem_cons, not_or] at hj
      obtain ⟨e1, e2⟩ := (h2 j).1 hj.2
      rw [e1, e2]
      cases hg : g i <;> simp only [varUpd, and_self]
      exact ⟨Function.update_of_ne hj.1 _ _, Function.update_of_ne (β := fun _ => Fin n → ℝ) hj.1 _ _⟩
    · by_cases hjl : j ∈ l
      · exact (h2 j).2 hjl lf hlf
      · have : j = i := (List.mem_cons.1 hj).resolve_right hjl
        subst this
        obtain ⟨e1, e2⟩ := (h2 j).1 hjl
        rw [e1, e2, hlf]
        exact ⟨by simp [varUpd], Function.update_self (β := fun _ => Fin n → ℝ) ..⟩

theorem fitVarSerial_eq (x : Matrix (Fin n) (Fin 1) ℝ) (y : Fin n → ℝ) (W : Fin n → Fin n → ℝ) {stop : ℕ → Bool}
    (hs : ∀ q, stop q = false) :
    fitVarCoreSerial x y W stop = if ∀ i, (xtwx x (W i)).PosDef then
      .ok (fun i => (fitAt x y W i).beta 0, Matrix.of fun i => (fitAt x y W i).si) else .throw .runtime := by
  unfold fitVarCoreSerial
  rw [serialFor_ok (fun i => localFit x y (W i) (x i)) _ 0 _ (fun q _ => hs q) (fun _ _ => rfl)]
  obtain ⟨h1, h2⟩ := varFold (fun i => localFit x y (W i) (x i)) (List.finRange n) VarAcc.zero (List.nodup_finRange n)
  have key : (∀ i ∈ List.finRange n, ∃ lf, localFit x y (W i) (x i) = .ok lf) ↔ ∀ i, (xtwx x (W i)).PosDef := by
    constructor
    · intro h i; obtain ⟨lf, hl⟩ := h i (List.mem_finRange i); exact (localFit_eq_ok.1 hl).1
    · intro h i _; exact ⟨_, localFit_fitAt (h i)⟩
  rw [key] at h1
  simp only [Res.bind]
  by_cases hp : ∀ i, (xtwx x (W i)).PosDef
  · rw [if_pos hp, if_pos (h1.2 ⟨rfl, hp⟩)]
    congr 2
    · funext j; exact ((h2 j).2 (List.mem_finRange j) _ (localFit_fitAt (hp j))).1
    · funext j; exact ((h2 j).2 (List.mem_finRange j) _ (localFit_fitAt (hp j))).2
  · rw [if_neg hp, if_neg (fun h => hp (h1.1 h).2)]

/-- **C34 (parallel fit of one variable).** Under every schedule and assignment of locations to threads, the parallel fit of one
variable gives exactly the result of the serial one: the same coefficients and hat rows, or a failure in the same cases. -/
theorem C34_parallel_agrees (x : Matrix (Fin n) (Fin 1) ℝ) (y : Fin n → ℝ) (W : Fin n → Fin n → ℝ)
    (evs : List (OmpEv (Fin n) (Fin T))) (hsch : Schedule (List.finRange n) evs) :
    fitVarCoreOmp x y W NoStop evs = fitVarCoreSerial x y W NoStop := by
  rw [fitVarSerial_eq x y W (fun _ => rfl)]
  unfold fitVarCoreOmp
  obtain ⟨-, -, h3⟩ := omp_ok (g := fun i => Res.ok (localFit x y (W i) (x i))) (upd := fun (_ : Fin T) => varUpd) (stop := NoStop)
    (fun _ => rfl) (fun i => localFit x y (W i) (x i)) VarAcc.zero hsch (fun _ _ => rfl)
  simp only [h3]
  have e : (finishes evs).foldl (fun s (ti : Fin T × Fin n) => varUpd ti.2 (localFit x y (W ti.2) (x ti.2)) s) VarAcc.zero =
      ((finishes evs).map Prod.snd).foldl (fun s i => varUpd i (localFit x y (W i) (x i)) s) VarAcc.zero := by
    rw [List.foldl_map]
  rw [e]
  have hnd : ((finishes evs).map Prod.snd).Nodup := hsch.finishes.nodup_iff.2 (List.nodup_finRange n)
  have hmem : ∀ i, i ∈ (finishes evs).map Prod.snd := fun i => hsch.finishes.mem_iff.2 (List.mem_finRange i)
  obtain ⟨h1, h2⟩ := varFold (fun i => localFit x y (W i) (x i)) _ VarAcc.zero hnd
  have key : (∀ i ∈ (finishes evs).map Prod.snd, ∃ lf, localFit x y (W i) (x i) = .ok lf) ↔ ∀ i, (xtwx x (W i)).PosDef := by
    constructor
    · intro h i; obtain ⟨lf, hl⟩ := h i (hmem i); exact (localFit_eq_ok.1 hl).1
    · intro h i _; exact ⟨_, localFit_fitAt (h i)⟩
  rw [key] at h1
  by_cases hp : ∀ i, (xtwx x (W i)).PosDef
  · rw [if_pos hp, if_pos (h1.2 ⟨rfl, hp⟩)]
    congr 2
    · funext j; exact ((h2 j).2 (hmem j) _ (localFit_fitAt (hp j))).1
    · funext j; exact ((h2 j).2 (hmem j) _ (localFit_fitAt (hp j))).2
  · rw [if_neg hp, if_neg (fun h => hp (h1.1 h).2)]

/-- The hat rows of a one-variable fit turn the response into the fitted component. -/
theorem fitVar_hat {x : Matrix (Fin n) (Fin k) ℝ} {i : Fin k} {y : Fin n → ℝ} {W : Fin n → Fin n → ℝ} {stop : ℕ → Bool}
    {r : (Fin n → ℝ) × Matrix (Fin n) (Fin n) ℝ} (h : fitVarCoreSerial (colOf x i) y W stop = .ok r) (j : Fin n) :
    r.1 j * x j i = (r.2 *ᵥ y) j := by
  change _ = r.2 j ⬝ᵥ y
  rcases fitVar_rows h j with ⟨h1, h2⟩ | ⟨lf, h1, h2, h3⟩
  · rw [h1, h2]; simp
  · obtain ⟨-, hb, -, hs⟩ := localFit_eq_ok.1 h1
    rw [h2, h3, hs, ← dotProduct_mulVec, ← mulVec_mulVec, ← hb]
    simp [dotProduct, colOf, mul_comm]

/-! ## C34: hat matrices -/

/-- The relation between coefficients and hat matrices, stated from the property: component `i` of the fit is its hat matrix
times the response, the overall hat matrix is the sum of the component hat matrices, the fitted values are the overall hat matrix
times the response, and the residuals are what is left. -/
structure HatConsistent (x : Matrix (Fin n) (Fin k) ℝ) (y : Fin n → ℝ) (s : BfState n k) : Prop where
  component : ∀ i j, s.betas j i * x j i = (s.sArr i *ᵥ y) j
  total : s.s0 = ∑ i, s.sArr i
  fit : ∀ j, ∑ i, x j i * s.betas j i = (s.s0 *ᵥ y) j
  resid : ∀ j, s.resid j = y j - ∑ i, x j i * s.betas j i

theorem hat_mk {x : Matrix (Fin n) (Fin k) ℝ} {y : Fin n → ℝ} {s : BfState n k}
    (h1 : ∀ i j, s.betas j i * x j i = (s.sArr i *ᵥ y) j) (h2 : s.s0 = ∑ i, s.sArr i)
    (h3 : ∀ j, s.resid j = y j - fitted x s.betas j) : HatConsistent x y s := by
  refine ⟨h1, h2, fun j => ?_, fun j => ?_⟩
  · rw [h2, Matrix.sum_mulVec, Finset.sum_apply]
    exact Finset.sum_congr rfl fun i _ => by rw [← h1, mul_comm]
  · rw [h3, fitted]
    congr 1
    exact Finset.sum_congr rfl fun i _ => mul_comm _ _

theorem bfSelect_fields (c : MgwrCfg n k) (i : Fin k) (b : BandwidthWeight) (s : BfState n k) :
    (bfSelect c i b s).betas = s.betas ∧ (bfSelect c i b s).resid = s.resid ∧ (bfSelect c i b s).s0 = s.s0 ∧
      (bfSelect c i b s).sArr = s.sArr := by
  simp only [bfSelect]
  split
  · exact ⟨rfl, rfl, rfl, rfl⟩
  · split <;> exact ⟨rfl, rfl, rfl, rfl⟩

theorem bfSearch_fields {c : MgwrCfg n k} {e : BfEnv n k} {it : ℕ} {i : Fin k} {s s' : BfState n k}
    (h : bfSearch c e it i s = .ok s') :
    s'.betas = s.betas ∧ s'.resid = s.resid ∧ s'.s0 = s.s0 ∧ s'.sArr = s.sArr := by
  unfold bfSearch at h
  split at h
  · cases Res.ok.inj h; exact ⟨rfl, rfl, rfl, rfl⟩
  · rw [Res.bind_eq_ok'] at h
    obtain ⟨b, -, h⟩ := h
    cases Res.ok.inj h
    exact bfSelect_fields c i b s

theorem hat_store (c : MgwrCfg n k) (hh : c.hasHat = true) (i : Fin k) (s : BfState n k) (hs : HatConsistent c.x c.y s)
    (beta : Fin n → ℝ) (S : Matrix (Fin n) (Fin n) ℝ) (hS : ∀ j, beta j * c.x j i = (S *ᵥ partialResid c i s) j) :
    HatConsistent c.x c.y (bfStore c i beta S s) := by
  have hy : partialResid c i s = (1 - s.s0 + s.sArr i) *ᵥ c.y := by
    funext j
    rw [add_mulVec, sub_mulVec, one_mulVec, Pi.add_apply, Pi.sub_apply, ← hs.fit, ← hs.component, partialResid, hs.resid]
  apply hat_mk
  · intro m j
    simp only [bfStore, hh, if_true, of_apply]
    by_cases hm : m = i
    · subst hm
      rw [if_pos rfl, Function.update_self, hS j, hy, mulVec_mulVec]
      congr 2
      rw [show S * (1 - s.s0 + s.sArr m) = S * (s.sArr m - s.s0) + S by noncomm_ring]
    · rw [if_neg hm, Function.update_of_ne hm]; exact hs.component m j
  · simp only [bfStore, hh, if_true]
    have : ∑ m, Function.update s.sArr i (S * (s.sArr i - s.s0) + S) m =
        (S * (s.sArr i - s.s0) + S) + ∑ m ∈ Finset.univ \ {i}, s.sArr m := Finset.sum_update_of_mem (Finset.mem_univ i) _ _
    rw [this]
    have h0 : s.s0 = s.sArr i + ∑ m ∈ Finset.univ \ {i}, s.sArr m := by
      rw [hs.total, Finset.sdiff_singleton_eq_erase, Finset.add_sum_erase _ _ (Finset.mem_univ i)]
    rw [← sub_eq_iff_eq_add'] at h0
    rw [← h0]
    abel
  · intro j; rfl

theorem bfVar_hat (c : MgwrCfg n k) (hh : c.hasHat = true) (e : BfEnv n k) (it : ℕ) (i : Fin k) (s : BfState n k)
    (p : BfState n k × Bool) (hs : HatConsistent c.x c.y s) (hp : bfVar c e it i s = .ok p) : HatConsistent c.x c.y p.1 := by
  unfold bfVar at hp
  split at hp
  · cases Res.ok.inj hp; exact hs
  · rw [Res.bind_eq_ok'] at hp
    obtain ⟨s', h1, hp⟩ := hp
    obtain ⟨f1, f2, f3, f4⟩ := bfSearch_fields h1
    have hs' : HatConsistent c.x c.y s' :=
      ⟨by rw [f1, f4]; exact hs.component, by rw [f3, f4]; exact hs.total, by rw [f1, f3]; exact hs.fit,
        by rw [f1, f2]; exact hs.resid⟩
    split at hp
    · cases Res.ok.inj hp; exact hs'
    · rw [Res.bind_eq_ok'] at hp
      obtain ⟨r, h2, hp⟩ := hp
      cases Res.ok.inj hp
      refine hat_store c hh i s' hs' _ _ (fun j => ?_)
      have : partialResid c i s' = partialResid c i s := by unfold partialResid; rw [f1, f2]
      rw [this]
      exact fitVar_hat h2 j

theorem hat_init (c : MgwrCfg n k) (W0 : Fin n → Fin n → ℝ) (a : FitAcc n k)
    (h : fitCoreSerial c.x c.y W0 0 n true true NoStop = .ok (a, false)) (init : Fin k → InitType) (bw : Fin k → BandwidthWeight) :
    HatConsistent c.x c.y (bfInit c a init bw) := by
  obtain ⟨hp, hc⟩ := fitCoreSerial_ok h
  have hC : ∀ j : Fin n, a.c j.val = (xtwx c.x (W0 j))⁻¹ * xtw c.x (W0 j) := fun j => by
    have := hc.c rfl j (Nat.zero_le _) j.isLt
    simpa [fitAt] using this
  have hS : ∀ j : Fin n, a.s j.val = c.x j ᵥ* ((xtwx c.x (W0 j))⁻¹ * xtw c.x (W0 j)) := fun j => by
    have := hc.s rfl j (Nat.zero_le _) j.isLt
    simpa [fitAt] using this
  have hb : ∀ j, a.betas j = ((xtwx c.x (W0 j))⁻¹ * xtw c.x (W0 j)) *ᵥ c.y := fun j => by
    rw [hc.betas j (Nat.zero_le _) j.isLt, ← mulVec_mulVec]; rfl
  apply hat_mk
  · intro i j
    simp only [bfInit]
    rw [hb j]
    simp only [mulVec, dotProduct, of_apply, hC j, Finset.sum_mul]
    exact Finset.sum_congr rfl fun l _ => by ring
  · simp only [bfInit]
    ext j l
    rw [Matrix.sum_apply]
    simp only [of_apply]
    rw [hS j, hC j]
    rfl
  · intro j; rfl

/-- **C34 (hat matrices).** Start back-fitting from the initial GWR fit and let it run with any bandwidth choices, any order of
stop requests, and any number of updates. At every moment the fitted values are `S0` times the response, each component is its own
hat matrix times the response, `S0` is the sum of the component hat matrices and the residuals are the response minus the fit. -/
theorem C34_hat_matrices (c : MgwrCfg n k) (hh : c.hasHat = true) (e : BfEnv n k) (W0 : Fin n → Fin n → ℝ) (a : FitAcc n k)
    (h0 : fitCoreSerial c.x c.y W0 0 n true true NoStop = .ok (a, false)) (init : Fin k → InitType) (bw : Fin k → BandwidthWeight)
    (r : BfResult n k) (hr : backfitting c e (bfInit c a init bw) = .ok r) :
    HatConsistent c.x c.y r.state ∧ ∀ s ∈ r.log, HatConsistent c.x c.y s :=
  backfitting_inv c e (HatConsistent c.x c.y) (fun it i s p hs hp => bfVar_hat c hh e it i s p hs hp) _ r
    (hat_init c W0 a h0 init bw) hr

/-- **C34 (any order).** The same holds after updating any variables in any order and with any repetitions. -/
theorem C34_any_order (c : MgwrCfg n k) (hh : c.hasHat = true) (e : BfEnv n k) (W0 : Fin n → Fin n → ℝ) (a : FitAcc n k)
    (h0 : fitCoreSerial c.x c.y W0 0 n true true NoStop = .ok (a, false)) (init : Fin k → InitType) (bw : Fin k → BandwidthWeight)
    (it : ℕ) (vars : List (Fin k)) (s : BfState n k) (log : List (BfState n k))
    (hr : bfVars c e it vars (bfInit c a init bw) [] = .ok (s, log)) : HatConsistent c.x c.y s :=
  bfVars_inv c e it (fun _ s => HatConsistent c.x c.y s) (fun i s _ p hs hp => bfVar_hat c hh e it i s p hs hp) vars _ _ (s, log)
    (hat_init c W0 a h0 init bw) hr

theorem bfLoop_rss (c : MgwrCfg n k) (e : BfEnv n k) :
    ∀ (m it : ℕ) (go : Bool) (r0 : ℝ) (s : BfState n k) (log : List (BfState n k)) (hist : List ℝ) (r : BfResult n k),
      r0 = rss c.x c.y s.betas → bfLoop c e m it go r0 s log hist = .ok r → r.rss = rss c.x c.y r.state.betas
  | 0, it, go, r0, s, log, hist, r, h, hr => by simp only [bfLoop, Res.ok.injEq] at hr; subst hr; exact h
  | m + 1, it, go, r0, s, log, hist, r, h, hr => by
    simp only [bfLoop] at hr
    split at hr
    · cases Res.ok.inj hr; exact h
    · split at hr
      · cases Res.ok.inj hr; exact h
      · rw [Res.bind_eq_ok'] at hr
        obtain ⟨p, hp, hr⟩ := hr
        exact bfLoop_rss c e m _ _ _ _ _ _ r rfl hr

/-- **C34 (diagnostics).** Whatever bandwidths were chosen, there is a matrix that turns the response into the fitted values of the
returned coefficients, and the reported residual sum of squares, effective number of parameters and degrees of freedom are those
of that matrix. -/
theorem C34_diagnostics (c : MgwrCfg n k) (hh : c.hasHat = true) (e : BfEnv n k) (W0 : Fin n → Fin n → ℝ) (init : Fin k → InitType)
    (bw : Fin k → BandwidthWeight) (o : MgwrOut n k) (ho : mgwrFit c e W0 init bw = .ok o) :
    ∃ S : Matrix (Fin n) (Fin n) ℝ, (∀ j, ∑ i, c.x j i * o.betas j i = (S *ᵥ c.y) j) ∧
      o.diagnostic.RSS = ∑ j, (c.y j - (S *ᵥ c.y) j) ^ 2 ∧
      o.diagnostic.ENP = 2 * trace S - trace (S * Sᵀ) ∧ o.diagnostic.EDF = n - 2 * trace S + trace (S * Sᵀ) ∧
      (0 < o.diagnostic.RSS → trace S ≠ n - 2 → o.diagnostic.AICc = .ok (aiccFormula n o.diagnostic.RSS (trace S))) ∧
      ∀ tss, tss = ∑ j, (c.y j - (∑ l, c.y l) / n) ^ 2 → tss ≠ 0 → o.diagnostic.RSquare = .ok (1 - o.diagnostic.RSS / tss) ∧
        (o.diagnostic.EDF ≠ 1 →
          o.diagnostic.RSquareAdjust = .ok (1 - o.diagnostic.RSS / tss * (n - 1) / (o.diagnostic.EDF - 1))) := by
  unfold mgwrFit at ho
  rw [Res.bind_eq_ok'] at ho
  obtain ⟨⟨a, t⟩, h1, ho⟩ := ho
  rw [Res.bind_eq_ok'] at ho
  obtain ⟨r, h2, ho⟩ := ho
  cases Res.ok.inj ho
  have ht : t = false := by
    have : ∀ (l : List (Fin n)) (q : ℕ) (b : FitAcc n k) (r : FitAcc n k × Bool),
        serialFor (fun i => localFit c.x c.y (W0 i) (c.x i)) (fitUpd 0 true true) (fun _ => false) l q b = .ok r → r.2 = false := by
      intro l
      induction l with
      | nil => intro q b r h; simp only [serialFor, Res.ok.injEq] at h; subst h; rfl
      | cons i l ih =>
        intro q b r h
        simp only [serialFor, Bool.false_eq_true, if_false] at h
        rw [Res.bind_eq_ok'] at h
        obtain ⟨lf, -, h⟩ := h
        exact ih _ _ _ h
    exact this _ _ _ _ h1
  subst ht
  obtain ⟨hs, -⟩ := C34_hat_matrices c hh e W0 a h1 init bw r h2
  have hrss := bfLoop_rss c e _ _ _ _ _ _ _ r rfl h2
  refine ⟨r.state.s0, hs.fit, ?_, rfl, rfl, fun hp ht => ?_, fun tss htss h0 => ?_⟩
  rotate_left
  · have hp' : 0 < r.rss := hp
    have hn : (0 : ℝ) < n := by
      rcases Nat.eq_zero_or_pos n with hz | hz
      · subst hz; rw [hrss] at hp'; simp [rss] at hp'
      · exact_mod_cast hz
    have hd : (n : ℝ) - 2 - trace r.state.s0 ≠ 0 := fun e => ht (by linarith)
    simp only [mgwrDiagnostic, fdiv, flog, Matrix.cons_val_zero, hn.ne', hd, if_false, Res.bind, not_le.2 (div_pos hp' hn), aiccFormula]
  · have ht : ∑ i, (c.y i - meanVec c.y) * (c.y i - meanVec c.y) = tss := by rw [htss]; simp only [sq, meanVec]
    constructor
    · simp only [mgwrDiagnostic, ht, fdiv, h0, if_false, Res.bind]
    · intro hne
      have hne' : (n : ℝ) - 2 * trace r.state.s0 + trace (r.state.s0 * r.state.s0ᵀ) - 1 ≠ 0 := fun e => hne (by
        simp only [mgwrDiagnostic, Matrix.cons_val_zero, Matrix.cons_val_one]; linarith)
      simp only [mgwrDiagnostic, ht, fdiv, h0, if_false, Res.bind, Matrix.cons_val_zero, Matrix.cons_val_one, hne', sub_sub_cancel]
  have := hrss
  simp only [mgwrDiagnostic]
  rw [this]
  simp only [rss, fitted]
  refine Finset.sum_congr rfl fun j _ => ?_
  rw [← hs.fit j, sq]
  simp only [mul_comm]

/-! ## C64: what one update computes -/

/-- **C64 (one update).** When back-fitting updates variable `i` undisturbed, the new coefficients of that variable are, at every
location, the unique weighted least squares fit of that variable alone to the response minus the components of all other
variables, with the weights of the bandwidth then in force; the coefficients of the other variables do not change. -/
theorem C64_update_is_weighted_least_squares (c : MgwrCfg n k) (hh : c.hasHat = true) (e : BfEnv n k) (it : ℕ) (i : Fin k)
    (hn : ∀ q, e.stopLoc it i q = false) (s s' : BfState n k) (hs : HatConsistent c.x c.y s)
    (h : bfVar c e it i s = .ok (s', false)) :
    (∀ j, IsWLS (colOf c.x i) (fun l => c.y l - ∑ m ∈ Finset.univ.erase i, c.x l m * s.betas l m) (c.wt i (s'.bw i) j)
      (fun _ => s'.betas j i)) ∧ ∀ j m, m ≠ i → s'.betas j m = s.betas j m := by
  unfold bfVar at h
  split at h
  · simp at h
  · rw [Res.bind_eq_ok'] at h
    obtain ⟨s1, h1, h⟩ := h
    obtain ⟨f1, f2, f3, f4⟩ := bfSearch_fields h1
    split at h
    · simp at h
    · rw [Res.bind_eq_ok'] at h
      obtain ⟨r, h2, h⟩ := h
      simp only [Res.ok.injEq, Prod.mk.injEq, and_true] at h
      subst h
      have hp : partialResid c i s = fun l => c.y l - ∑ m ∈ Finset.univ.erase i, c.x l m * s.betas l m := by
        funext l
        rw [partialResid, hs.resid, ← Finset.add_sum_erase _ _ (Finset.mem_univ i)]
        ring
      rw [fitVarSerial_eq _ _ _ hn] at h2
      split at h2
      · rename_i hpd
        cases Res.ok.inj h2
        refine ⟨fun j => ?_, fun j m hm => ?_⟩
        · rw [← hp]
          have := isWLS_of_posDef (y := partialResid c i s) (hpd j)
          have heq : (fun _ : Fin 1 => (bfStore c i (fun j => (fitAt (colOf c.x i) (partialResid c i s) (c.wt i (s1.bw i)) j).beta 0)
              (Matrix.of fun j => (fitAt (colOf c.x i) (partialResid c i s) (c.wt i (s1.bw i)) j).si) s1).betas j i) =
              (xtwx (colOf c.x i) (c.wt i (s1.bw i) j))⁻¹ *ᵥ (xtw (colOf c.x i) (c.wt i (s1.bw i) j) *ᵥ partialResid c i s) := by
            funext q
            rw [Subsingleton.elim q 0]
            simp [bfStore, fitAt]
          rw [heq]
          exact this
        · simp [bfStore, hm, f1]
      · cases h2

/-- **C64 (fixed point).** If an update leaves the coefficients as they were, the fit of that variable is already the weighted
least squares fit to the response minus the other components; a state no update changes solves all those problems at once. -/
theorem C64_fixed_point (c : MgwrCfg n k) (hh : c.hasHat = true) (e : BfEnv n k) (hn : ∀ it i q, e.stopLoc it i q = false)
    (s : BfState n k) (hs : HatConsistent c.x c.y s)
    (hfix : ∀ i, ∃ it s', bfVar c e it i s = .ok (s', false) ∧ s'.bw = s.bw ∧ s'.betas = s.betas) (i : Fin k) (j : Fin n) :
    IsWLS (colOf c.x i) (fun l => c.y l - ∑ m ∈ Finset.univ.erase i, c.x l m * s.betas l m) (c.wt i (s.bw i) j)
      (fun _ => s.betas j i) := by
  obtain ⟨it, s', h, hb, hbe⟩ := hfix i
  have := (C64_update_is_weighted_least_squares c hh e it i (hn it i) s s' hs h).1 j
  rwa [hb, hbe] at this

/-- **C64 (criterion).** The cross-validation criterion minimised for a variable is the leave-one-out sum of squares of the fit of
that variable alone to the partial residuals. -/
theorem C64_criterion_is_leave_one_out (x : Matrix (Fin n) (Fin k) ℝ) (i : Fin k) (y : Fin n → ℝ) (W : Fin n → Fin n → ℝ)
    (b : Matrix (Fin n) (Fin 1) ℝ) (h : fitCoreCVSerial (colOf x i) y W 0 n NoStop = .ok (b, false)) :
    (∀ j, IsWLS (colOf x i) y (fun l => if l = j then 0 else W j l) (b j)) ∧
    (∑ j, (y j - x j i * b j 0) ^ 2 ≤ dblMax →
      varCriterion .CV (colOf x i) y (.ok W) = ∑ j, (y j - x j i * b j 0) ^ 2) := by
  obtain ⟨h1, h2⟩ := C24_score_is_leave_one_out (colOf x i) y W NoStop b h
  refine ⟨h1, fun hle => ?_⟩
  have := h2 (by simpa [colOf] using hle)
  simpa [varCriterion, varCriterionCV, colOf] using this

/-- **C64 (criterion).** The AIC criterion minimised for a variable is the AICc that basic regression of the partial residuals on that
variable alone reports, whenever that is a double. -/
theorem C64_criterion_is_aicc (x : Matrix (Fin n) (Fin k) ℝ) (i : Fin k) (y : Fin n → ℝ) (W : Fin n → Fin n → ℝ) (a : FitAcc n 1)
    (h : fitCoreSerial (colOf x i) y W 0 n true true NoStop = .ok (a, false))
    (hp : 0 < ∑ j, (y j - x j i * a.betas j 0) ^ 2) (t : ℝ) (ht : t = ∑ j : Fin n, a.s j j) (hne : t ≠ n - 2)
    (hfin : |aiccFormula n (∑ j, (y j - x j i * a.betas j 0) ^ 2) t| ≤ dblMax) :
    varCriterion .AIC (colOf x i) y (.ok W) = aiccFormula n (∑ j, (y j - x j i * a.betas j 0) ^ 2) t := by
  have e : residualSS (colOf x i) y a.betas = ∑ j, (y j - x j i * a.betas j 0) ^ 2 := by simp [residualSS, colOf]
  have etr : trace (Matrix.of fun i l => a.s i.val l : Matrix (Fin n) (Fin n) ℝ) = t := by rw [ht]; rfl
  have h1 := (C26_formulas (colOf x i) y W true NoStop a h).2.2.2.2.1 (by rw [e]; exact hp) (by rw [etr]; exact hne)
  rw [e, etr] at h1
  exact C26_criterion_aicc (colOf x i) y W true true a h _ h1 hfin

/-! ## C35: iteration limit and frozen bandwidths -/

theorem bfVars_length (c : MgwrCfg n k) (e : BfEnv n k) (it : ℕ) :
    ∀ (is : List (Fin k)) (s : BfState n k) (log : List (BfState n k)) (r : BfState n k × List (BfState n k)),
      bfVars c e it is s log = .ok r → r.2.length ≤ log.length + is.length
  | [], s, log, r, hr => by simp only [bfVars, Res.ok.injEq] at hr; subst hr; simp
  | i :: is, s, log, r, hr => by
    simp only [bfVars] at hr
    rw [Res.bind_eq_ok'] at hr
    obtain ⟨p, hp, hr⟩ := hr
    split at hr
    · cases Res.ok.inj hr; simp
    · have := bfVars_length c e it is p.1 _ r hr
      simp only [List.length_append, List.length_cons, List.length_nil] at this ⊢
      omega

theorem bfLoop_count (c : MgwrCfg n k) (e : BfEnv n k) :
    ∀ (m it : ℕ) (go : Bool) (r0 : ℝ) (s : BfState n k) (log : List (BfState n k)) (hist : List ℝ) (r : BfResult n k),
      bfLoop c e m it go r0 s log hist = .ok r → r.iterations ≤ it + m ∧ r.log.length + it * k ≤ log.length + r.iterations * k ∧
        it ≤ r.iterations
  | 0, it, go, r0, s, log, hist, r, hr => by simp only [bfLoop, Res.ok.injEq] at hr; subst hr; simp
  | m + 1, it, go, r0, s, log, hist, r, hr => by
    simp only [bfLoop] at hr
    split at hr
    · cases Res.ok.inj hr; simp
    · split at hr
      · cases Res.ok.inj hr; simp
      · rw [Res.bind_eq_ok'] at hr
        obtain ⟨p, hp, hr⟩ := hr
        obtain ⟨a1, a2, a3⟩ := bfLoop_count c e m _ _ _ _ _ _ r hr
        have := bfVars_length c e it _ _ _ p hp
        simp only [List.length_finRange] at this
        refine ⟨by omega, ?_, by omega⟩
        have : (it + 1) * k = it * k + k := by ring
        omega

/-- **C35 (iteration limit).** Back-fitting begins at most the configured maximum number of iterations and updates a variable at
most that many times the number of variables, whatever the bandwidth searches and stop requests do. -/
theorem C35_iteration_limit (c : MgwrCfg n k) (e : BfEnv n k) (s : BfState n k) (r : BfResult n k)
    (hr : backfitting c e s = .ok r) : r.iterations ≤ c.maxIter ∧ r.log.length ≤ 1 + c.maxIter * k := by
  obtain ⟨h1, h2, -⟩ := bfLoop_count c e _ _ _ _ _ _ _ r hr
  simp only [zero_add, zero_mul, add_zero, List.length_singleton] at h1 h2
  exact ⟨h1, h2.trans (by gcongr)⟩

/-- Whether the residual sum of squares changed by more than the threshold: in absolute terms (`CVR`), or as the root of the relative change
(`dCVR`; a change to 0 counts as infinite, no change at 0 as none). -/
def ChangedBy (t : BackFitCrit) (thr before after : ℝ) : Prop :=
  match t with
  | .CVR => thr < |after - before|
  | .dCVR => (after = 0 ∧ before ≠ 0) ∨ (after ≠ 0 ∧ thr < √(|after - before| / after))

theorem bfContinue_iff (t : BackFitCrit) (thr r0 r1 : ℝ) : bfContinue t thr r0 r1 = true ↔ ChangedBy t thr r0 r1 := by
  cases t
  · simp [bfContinue, ChangedBy]
  · by_cases h : r1 = 0 <;> simp [bfContinue, ChangedBy, h]

/-- A list of residual sums of squares, latest first, in which every change but possibly the last was above the threshold. -/
def AllButLastContinue (t : BackFitCrit) (thr : ℝ) : List ℝ → Prop
  | _ :: before :: older => List.IsChain (fun a b => ChangedBy t thr b a) (before :: older)
  | _ => True

theorem bfLoop_hist (c : MgwrCfg n k) (e : BfEnv n k) (hs : ∀ it, e.stopIter it = false) :
    ∀ (m it : ℕ) (go : Bool) (r0 : ℝ) (s : BfState n k) (log : List (BfState n k)) (hist : List ℝ) (r : BfResult n k),
      bfLoop c e m it go r0 s log hist = .ok r →
      hist.head? = some r0 → hist.length = it + 1 → AllButLastContinue c.critType c.critThreshold hist →
      (go = true → List.IsChain (fun a b => ChangedBy c.critType c.critThreshold b a) hist) →
      (go = false → ∃ before older, hist = r0 :: before :: older ∧ ¬ ChangedBy c.critType c.critThreshold before r0) →
      r.hist.head? = some r.rss ∧ r.hist.length = r.iterations + 1 ∧ AllButLastContinue c.critType c.critThreshold r.hist ∧
      (r.iterations = it + m ∨
        ∃ before older, r.hist = r.rss :: before :: older ∧ ¬ ChangedBy c.critType c.critThreshold before r.rss)
  | 0, it, go, r0, s, log, hist, r, hr, h1, h2, h3, h4, h5 => by
    simp only [bfLoop, Res.ok.injEq] at hr; subst hr; exact ⟨h1, h2, h3, Or.inl rfl⟩
  | m + 1, it, go, r0, s, log, hist, r, hr, h1, h2, h3, h4, h5 => by
    simp only [bfLoop] at hr
    split at hr
    · rename_i hg; cases Res.ok.inj hr; exact ⟨h1, h2, h3, Or.inr (h5 hg)⟩
    · rename_i hg
      simp only [hs it, Bool.false_eq_true, if_false] at hr
      rw [Res.bind_eq_ok'] at hr
      obtain ⟨p, hp, hr⟩ := hr
      have hgt : go = true := by simpa using hg
      obtain ⟨old, rfl⟩ : ∃ old, hist = r0 :: old := by
        cases hist with
        | nil => simp at h1
        | cons a old => simp at h1; exact ⟨old, by rw [h1]⟩
      have := bfLoop_hist c e hs m _ _ _ _ _ _ r hr rfl (by simp only [List.length_cons] at h2 ⊢; omega) (h4 hgt)
        (fun hg' => List.isChain_cons_cons.2 ⟨(bfContinue_iff _ _ _ _).1 hg', h4 hgt⟩)
        (fun hg' => ⟨_, _, rfl, fun hc => by simp [(bfContinue_iff _ _ _ _).2 hc] at hg'⟩)
      refine ⟨this.1, this.2.1, this.2.2.1, this.2.2.2.imp_left fun h => by omega⟩

/-- What "considered converged" means: a variable is frozen if the user specified its bandwidth, or if its latest bandwidth
searches, at least one and at least `retry` in a row, each moved the bandwidth by no more than its threshold. -/
def Converged (thr : ℝ) (retry : ℕ) (moves : List ℝ) : Prop :=
  ∃ recent older, moves = recent ++ older ∧ recent ≠ [] ∧ retry ≤ recent.length ∧ ∀ d ∈ recent, d ≤ thr

theorem converged_iff (thr : ℝ) (retry : ℕ) (moves : List ℝ) :
    Converged thr retry moves ↔ 1 ≤ (moves.takeWhile (fun d => d ≤ thr)).length ∧
      retry ≤ (moves.takeWhile (fun d => d ≤ thr)).length := by
  constructor
  · rintro ⟨rec, old, rfl, hne, hl, hd⟩
    rw [List.takeWhile_append_of_pos (fun d h => by simpa using hd d h), List.length_append]
    have := List.length_pos_iff.2 hne
    omega
  · rintro ⟨h1, h2⟩
    refine ⟨_, _, (List.takeWhile_append_dropWhile (p := fun d => decide (d ≤ thr)) (l := moves)).symm, ?_, h2, fun d hd => ?_⟩
    · exact List.length_pos_iff.1 h1
    · simpa using List.mem_takeWhile_imp hd

/-- The bookkeeping of the bandwidth searches, relative to the settings at the start. -/
structure FreezeInv (c : MgwrCfg n k) (init0 : Fin k → InitType) (s : BfState n k) : Prop where
  count : ∀ i, s.changeNo i = ((s.moves i).takeWhile (fun d => d ≤ c.threshold i)).length
  iff : ∀ i, s.init i = .Specified ↔ init0 i = .Specified ∨ Converged (c.threshold i) c.retry (s.moves i)

theorem freeze_select (c : MgwrCfg n k) (init0 : Fin k → InitType) (s : BfState n k) (hs : FreezeInv c init0 s) (i : Fin k)
    (hi : s.init i ≠ .Specified) (b : BandwidthWeight) : FreezeInv c init0 (bfSelect c i b s) := by
  have hni : ¬ (init0 i = .Specified ∨ Converged (c.threshold i) c.retry (s.moves i)) := fun h => hi ((hs.iff i).2 h)
  rw [not_or] at hni
  simp only [bfSelect]
  by_cases hd : |b.mBandwidth - (s.bw i).mBandwidth| > c.threshold i
  · rw [if_pos hd]
    refine ⟨fun j => ?_, fun j => ?_⟩
    · by_cases hj : j = i
      · subst hj; simp [not_le.2 hd]
      · simp only [Function.update_of_ne hj]; exact hs.count j
    · by_cases hj : j = i
      · subst hj
        simp only [Function.update_self]
        rw [converged_iff]
        simp [not_le.2 hd, hi, hni.1]
      · simp only [Function.update_of_ne hj]; exact hs.iff j
  · rw [if_neg hd]
    have hd' := not_lt.1 hd
    have hcount : ∀ j, Function.update s.changeNo i (s.changeNo i + 1) j =
        ((Function.update s.moves i (|b.mBandwidth - (s.bw i).mBandwidth| :: s.moves i) j).takeWhile
          (fun d => d ≤ c.threshold j)).length := by
      intro j
      by_cases hj : j = i
      · subst hj; simp [hd', hs.count j]
      · simp only [Function.update_of_ne hj]; exact hs.count j
    have hconv : Converged (c.threshold i) c.retry (|b.mBandwidth - (s.bw i).mBandwidth| :: s.moves i) ↔
        c.retry ≤ s.changeNo i + 1 := by
      rw [converged_iff]
      simp [hd', hs.count i]
    split
    · rename_i hr
      simp only [Function.update_self] at hr
      refine ⟨hcount, fun j => ?_⟩
      by_cases hj : j = i
      · subst hj
        simp only [Function.update_self, true_iff]
        exact Or.inr (hconv.2 hr)
      · simp only [Function.update_of_ne hj]; exact hs.iff j
    · rename_i hr
      simp only [Function.update_self] at hr
      refine ⟨hcount, fun j => ?_⟩
      by_cases hj : j = i
      · subst hj
        simp only [Function.update_self, hi, false_iff, not_or]
        exact ⟨hni.1, fun h => hr (hconv.1 h)⟩
      · simp only [Function.update_of_ne hj]; exact hs.iff j

theorem bfVar_search {c : MgwrCfg n k} {e : BfEnv n k} {it : ℕ} {i : Fin k} {s : BfState n k} {p : BfState n k × Bool}
    (h : bfVar c e it i s = .ok p) : ∃ s1, (s1 = s ∨ bfSearch c e it i s = .ok s1) ∧ p.1.init = s1.init ∧ p.1.bw = s1.bw ∧
      p.1.changeNo = s1.changeNo ∧ p.1.moves = s1.moves := by
  unfold bfVar at h
  split at h
  · cases Res.ok.inj h; exact ⟨s, Or.inl rfl, rfl, rfl, rfl, rfl⟩
  · rw [Res.bind_eq_ok'] at h
    obtain ⟨s1, h1, h⟩ := h
    split at h
    · cases Res.ok.inj h; exact ⟨s1, Or.inr h1, rfl, rfl, rfl, rfl⟩
    · rw [Res.bind_eq_ok'] at h
      obtain ⟨r, h2, h⟩ := h
      cases Res.ok.inj h
      exact ⟨s1, Or.inr h1, rfl, rfl, rfl, rfl⟩

/-- **C35 (when a bandwidth is considered converged).** In every state back-fitting passes through, a variable is frozen exactly if
its bandwidth was specified by the user, or if its last `retry` searches in a row (and at least one) each moved it by at most its
threshold. -/
theorem C35_frozen_iff_converged (c : MgwrCfg n k) (e : BfEnv n k) (a : FitAcc n k) (init : Fin k → InitType)
    (bw : Fin k → BandwidthWeight) (r : BfResult n k) (hr : backfitting c e (bfInit c a init bw) = .ok r) :
    ∀ s ∈ r.state :: r.log, ∀ i, s.init i = .Specified ↔
      init i = .Specified ∨ Converged (c.threshold i) c.retry (s.moves i) := by
  have := backfitting_inv c e (FreezeInv c init) (fun it i s p hs hp => ?_) (bfInit c a init bw) r ?_ hr
  · intro s hs
    rcases List.mem_cons.1 hs with rfl | hs
    · exact this.1.iff
    · exact (this.2 s hs).iff
  · obtain ⟨s1, h1, e1, e2, e3, e4⟩ := bfVar_search hp
    have : FreezeInv c init s1 := by
      rcases h1 with rfl | h1
      · exact hs
      · unfold bfSearch at h1
        split at h1
        · cases Res.ok.inj h1; exact hs
        · rename_i hi
          rw [Res.bind_eq_ok'] at h1
          obtain ⟨b, -, h1⟩ := h1
          cases Res.ok.inj h1
          exact freeze_select c init s hs i hi b
    exact ⟨by rw [e3, e4]; exact this.count, by rw [e1, e4]; exact this.iff⟩
  · exact ⟨fun i => by simp [bfInit], fun i => by
      rw [converged_iff]; simp [bfInit]⟩

/-- **C35 (a converged bandwidth is never changed again).** Between any earlier and any later state of back-fitting: a variable that
was frozen stays frozen and keeps exactly its bandwidth, kernel and adaptivity. -/
theorem C35_frozen_never_changes (c : MgwrCfg n k) (e : BfEnv n k) (s : BfState n k) (r : BfResult n k)
    (hr : backfitting c e s = .ok r) :
    r.log.Pairwise (fun s s' => ∀ i, s.init i = .Specified → s'.init i = .Specified ∧ s'.bw i = s.bw i) ∧
    ∀ s ∈ r.log, ∀ i, s.init i = .Specified → r.state.init i = .Specified ∧ r.state.bw i = s.bw i := by
  refine backfitting_rel c e (fun s s' => ∀ i, s.init i = .Specified → s'.init i = .Specified ∧ s'.bw i = s.bw i)
    (fun s i h => ⟨h, rfl⟩) (fun a b d h1 h2 i h => ?_) (fun it i s p hp j hj => ?_) s r hr
  · obtain ⟨h3, h4⟩ := h1 i h
    obtain ⟨h5, h6⟩ := h2 i h3
    exact ⟨h5, h6.trans h4⟩
  · obtain ⟨s1, h1, e1, e2, -, -⟩ := bfVar_search hp
    rw [e1, e2]
    rcases h1 with rfl | h1
    · exact ⟨hj, rfl⟩
    · unfold bfSearch at h1
      split at h1
      · cases Res.ok.inj h1; exact ⟨hj, rfl⟩
      · rename_i hi
        rw [Res.bind_eq_ok'] at h1
        obtain ⟨b, -, h1⟩ := h1
        cases Res.ok.inj h1
        have hji : j ≠ i := fun h => hi (h ▸ hj)
        simp only [bfSelect]
        split
        · exact ⟨hj, by simp [hji]⟩
        · split
          · exact ⟨by simp [hji, hj], by simp [hji]⟩
          · exact ⟨hj, by simp [hji]⟩

theorem rss_eq_residualSS (c : MgwrCfg n k) (b : Matrix (Fin n) (Fin k) ℝ) : rss c.x c.y b = residualSS c.x c.y b := by
  simp only [rss, fitted, residualSS, sq, mul_comm]

theorem bfVars_log (c : MgwrCfg n k) (e : BfEnv n k) (it : ℕ) :
    ∀ (is : List (Fin k)) (s : BfState n k) (log : List (BfState n k)) (r : BfState n k × List (BfState n k)), s ∈ log →
      bfVars c e it is s log = .ok r → r.1 ∈ r.2 ∧ ∀ s' ∈ log, s' ∈ r.2
  | [], s, log, r, hm, hr => by simp only [bfVars, Res.ok.injEq] at hr; subst hr; exact ⟨hm, fun _ h => h⟩
  | i :: is, s, log, r, hm, hr => by
    simp only [bfVars] at hr
    rw [Res.bind_eq_ok'] at hr
    obtain ⟨p, hp, hr⟩ := hr
    split at hr
    · cases Res.ok.inj hr; simp; exact fun _ h => Or.inl h
    · have := bfVars_log c e it is p.1 _ r (by simp) hr
      exact ⟨this.1, fun s' h => this.2 s' (by simp [h])⟩

theorem bfLoop_values (c : MgwrCfg n k) (e : BfEnv n k) :
    ∀ (m it : ℕ) (go : Bool) (r0 : ℝ) (s : BfState n k) (log : List (BfState n k)) (hist : List ℝ) (r : BfResult n k),
      r0 = residualSS c.x c.y s.betas → (∀ v ∈ hist, ∃ s' ∈ log, v = residualSS c.x c.y s'.betas) → s ∈ log → hist ≠ [] →
      bfLoop c e m it go r0 s log hist = .ok r →
      r.rss = residualSS c.x c.y r.state.betas ∧ (∀ v ∈ r.hist, ∃ s' ∈ r.log, v = residualSS c.x c.y s'.betas) ∧
        r.hist.getLast? = hist.getLast?
  | 0, it, go, r0, s, log, hist, r, h, hl, hm, hne, hr => by
    simp only [bfLoop, Res.ok.injEq] at hr; subst hr; exact ⟨h, hl, rfl⟩
  | m + 1, it, go, r0, s, log, hist, r, h, hl, hm, hne, hr => by
    simp only [bfLoop] at hr
    split at hr
    · cases Res.ok.inj hr; exact ⟨h, hl, rfl⟩
    · split at hr
      · cases Res.ok.inj hr; exact ⟨h, hl, rfl⟩
      · rw [Res.bind_eq_ok'] at hr
        obtain ⟨p, hp, hr⟩ := hr
        obtain ⟨q1, q2⟩ := bfVars_log c e it _ _ _ p hm hp
        have := bfLoop_values c e m _ _ _ _ _ _ r (rss_eq_residualSS c p.1.betas) (by
          intro v hv
          rcases List.mem_cons.1 hv with rfl | hv
          · exact ⟨p.1, q1, rss_eq_residualSS c _⟩
          · obtain ⟨s', h1, h2⟩ := hl v hv
            exact ⟨s', q2 s' h1, h2⟩) q1 (by simp) hr
        refine ⟨this.1, this.2.1, this.2.2.trans ?_⟩
        cases hist with
        | nil => exact absurd rfl hne
        | cons a t => simp [List.getLast?_cons]

/-- **C35 (when back-fitting ends).** Let `hist` be the residual sums of squares at the start and after each iteration, latest
first. Without stop requests, back-fitting goes on as long as the change over an iteration is above the threshold, and ends either
after the first change that is not, or when the maximum number of iterations is reached. -/
theorem C35_ends_when_converged (c : MgwrCfg n k) (e : BfEnv n k) (hs : ∀ it, e.stopIter it = false)
    (hthr : c.critThreshold < dblMax) (s : BfState n k) (r : BfResult n k) (hr : backfitting c e s = .ok r) :
    r.rss = residualSS c.x c.y r.state.betas ∧ (∀ v ∈ r.hist, ∃ s' ∈ r.log, v = residualSS c.x c.y s'.betas) ∧
    r.hist.getLast? = some (residualSS c.x c.y s.betas) ∧
    r.hist.head? = some r.rss ∧ r.hist.length = r.iterations + 1 ∧ AllButLastContinue c.critType c.critThreshold r.hist ∧
    (r.iterations = c.maxIter ∨
      ∃ before older, r.hist = r.rss :: before :: older ∧ ¬ ChangedBy c.critType c.critThreshold before r.rss) := by
  have := bfLoop_hist c e hs _ _ _ _ _ _ _ r hr rfl rfl trivial (fun _ => List.isChain_singleton _)
    (fun hg => by simp [hthr] at hg)
  obtain ⟨h1, h2, h3⟩ := bfLoop_values c e _ _ _ _ _ _ _ r (rss_eq_residualSS c s.betas) (by simp [rss_eq_residualSS]) (by simp)
    (by simp) hr
  refine ⟨h1, h2, by rw [h3]; simp [rss_eq_residualSS], by simpa using this⟩

theorem bfVar_total (c : MgwrCfg n k) (e : BfEnv n k)
    (hp : ∀ i b j, (xtwx (colOf c.x i) (c.wt i b j)).PosDef) (hsel : ∀ it i y b, ∃ b', e.select it i y b = .ok b')
    (hn : ∀ it i q, e.stopLoc it i q = false) (it : ℕ) (i : Fin k) (s : BfState n k) : ∃ p, bfVar c e it i s = .ok p := by
  unfold bfVar
  split
  · exact ⟨_, rfl⟩
  · have : ∃ s', bfSearch c e it i s = .ok s' := by
      unfold bfSearch
      split
      · exact ⟨_, rfl⟩
      · obtain ⟨b, hb⟩ := hsel it i (partialResid c i s) (s.bw i)
        rw [hb]; exact ⟨_, rfl⟩
    obtain ⟨s', h'⟩ := this
    rw [h']
    simp only [Res.bind]
    split
    · exact ⟨_, rfl⟩
    · rw [fitVarSerial_eq _ _ _ (hn it i), if_pos (fun j => hp i _ j)]
      exact ⟨_, rfl⟩

/-- **C35 (no other failure).** If every one-variable regression is determined and every bandwidth search returns, back-fitting
returns. -/
theorem C35_returns (c : MgwrCfg n k) (e : BfEnv n k)
    (hp : ∀ i b j, (xtwx (colOf c.x i) (c.wt i b j)).PosDef) (hsel : ∀ it i y b, ∃ b', e.select it i y b = .ok b')
    (hn : ∀ it i q, e.stopLoc it i q = false) (s : BfState n k) : ∃ r, backfitting c e s = .ok r := by
  have hv : ∀ it (is : List (Fin k)) s log, ∃ r, bfVars c e it is s log = .ok r := by
    intro it is
    induction is with
    | nil => intro s log; exact ⟨_, rfl⟩
    | cons i is ih =>
      intro s log
      obtain ⟨p, hp'⟩ := bfVar_total c e hp hsel hn it i s
      simp only [bfVars, hp', Res.bind]
      split
      · exact ⟨_, rfl⟩
      · exact ih _ _
  have hl : ∀ m it go r0 s log hist, ∃ r, bfLoop c e m it go r0 s log hist = .ok r := by
    intro m
    induction m with
    | zero => intro it go r0 s log hist; exact ⟨_, rfl⟩
    | succ m ih =>
      intro it go r0 s log hist
      simp only [bfLoop]
      split
      · exact ⟨_, rfl⟩
      · split
        · exact ⟨_, rfl⟩
        · obtain ⟨p, hp'⟩ := hv it (List.finRange k) s log
          rw [hp']
          exact ih _ _ _ _ _ _
  exact hl _ _ _ _ _ _ _

/-! ## A concrete run -/

theorem exCol_posDef (i : Fin 2) (j : Fin 3) : (xtwx (colOf exX i) (exW j)).PosDef := by
  rw [gram_posDef_iff_determined _ _ (fun l => (exW_pos j l).le)]
  intro b hb
  have h1 := hb 1 (exW_pos j 1)
  funext q
  rw [Subsingleton.elim q 0]
  fin_cases i <;> simpa [colOf, exX] using h1

/-- Three observations, two variables; the weights do not depend on the bandwidth. -/
noncomputable def exCfg : MgwrCfg 3 2 :=
  { x := exX, y := ![1, 3, 2], wt := fun _ _ => exW, hasHat := true, threshold := fun _ => 1 / 2, retry := 2, critType := .CVR,
    critThreshold := 0, maxIter := 5 }

/-- No stop requests; every search moves the bandwidth by one quarter. -/
noncomputable def exEnv : BfEnv 3 2 :=
  { stopIter := fun _ => false, stopVar := fun _ _ => false, stopFit := fun _ _ => false, stopLoc := fun _ _ _ => false,
    select := fun _ _ _ b => .ok { b with mBandwidth := b.mBandwidth + 1 / 4 } }

/-- The hypotheses of the C34, C35 and C64 theorems are met. -/
theorem ex_backfitting : ∃ a r, fitCoreSerial exCfg.x exCfg.y exW 0 3 true true NoStop = .ok (a, false) ∧
    backfitting exCfg exEnv (bfInit exCfg a (fun _ => .Null) (fun _ => ⟨2, false, .Gaussian⟩)) = .ok r := by
  obtain ⟨a, ha⟩ := ex_fit ![1, 3, 2] true true
  obtain ⟨r, hr⟩ := C35_returns exCfg exEnv (fun i _ j => exCol_posDef i j) (fun _ _ _ b => ⟨_, rfl⟩) (fun _ _ _ => rfl)
    (bfInit exCfg a (fun _ => .Null) (fun _ => ⟨2, false, .Gaussian⟩))
  exact ⟨a, r, ha, hr⟩

example : ∃ o, mgwrFit exCfg exEnv exW (fun _ => .Null) (fun _ => ⟨2, false, .Gaussian⟩) = .ok o ∧
    ∃ S : Matrix (Fin 3) (Fin 3) ℝ, o.diagnostic.ENP = 2 * trace S - trace (S * Sᵀ) := by
  obtain ⟨a, r, h1, h2⟩ := ex_backfitting
  have : ∃ o, mgwrFit exCfg exEnv exW (fun _ => .Null) (fun _ => ⟨2, false, .Gaussian⟩) = .ok o := by
    unfold mgwrFit
    change ∃ o, (fitCoreSerial exCfg.x exCfg.y exW 0 3 true true NoStop).bind _ = .ok o
    rw [h1]
    simp only [Res.bind]
    rw [h2]
    exact ⟨_, rfl⟩
  obtain ⟨o, ho⟩ := this
  obtain ⟨S, -, -, h3, -⟩ := C34_diagnostics exCfg rfl exEnv exW _ _ o ho
  exact ⟨o, ho, S, h3⟩

example : ∃ r, backfitting exCfg exEnv (bfInit exCfg FitAcc.zero (fun _ => .Null) (fun _ => ⟨2, false, .Gaussian⟩)) = .ok r ∧
    r.iterations ≤ 5 := by
  obtain ⟨r, hr⟩ := C35_returns exCfg exEnv (fun i _ j => exCol_posDef i j) (fun _ _ _ b => ⟨_, rfl⟩) (fun _ _ _ => rfl)
    (bfInit exCfg FitAcc.zero (fun _ => .Null) (fun _ => ⟨2, false, .Gaussian⟩))
  exact ⟨r, hr, (C35_iteration_limit exCfg exEnv _ r hr).1⟩

/-- Two moves of one quarter after a move of one are convergence for a threshold of one half and two retries; one is not. -/
example : Converged (1 / 2) 2 [1 / 4, 1 / 4, 1] ∧ ¬ Converged (1 / 2) 2 [1 / 4, 1, 1 / 4] := by
  constructor
  · exact ⟨[1 / 4, 1 / 4], [1], rfl, by simp, by simp, by norm_num⟩
  · rw [converged_iff]; norm_num [List.takeWhile]

/-! ## C66: centring -/

/-- **C66 (centring).** Predictors marked for centring (never the intercept column) have mean zero after centring and differ from
the original by a constant; all other columns are untouched; centring again, as a second `fit()` does, changes nothing. -/
theorem C66_centring (hI : Bool) (cen : Fin k → Bool) (x : Matrix (Fin n) (Fin k) ℝ) (hn : 0 < n) :
    (∀ i, (hI = true → i.val ≠ 0) → cen i = true → ∑ j, centrePredictors hI cen x j i = 0 ∧
      ∃ m, ∀ j, centrePredictors hI cen x j i = x j i - m) ∧
    (∀ i, (hI = true ∧ i.val = 0) ∨ cen i = false → ∀ j, centrePredictors hI cen x j i = x j i) ∧
    centrePredictors hI cen (centrePredictors hI cen x) = centrePredictors hI cen x := by
  have hne : (n : ℝ) ≠ 0 := by positivity
  have zero : ∀ i, (hI = true → 1 ≤ i.val) ∧ cen i = true → ∑ j, centrePredictors hI cen x j i = 0 := by
    intro i h
    simp only [centrePredictors, of_apply, if_pos h, Finset.sum_sub_distrib, Finset.sum_const, Finset.card_univ, Fintype.card_fin,
      nsmul_eq_mul]
    field_simp
    ring
  refine ⟨fun i h1 h2 => ?_, fun i h j => ?_, ?_⟩
  · have h : (hI = true → 1 ≤ i.val) ∧ cen i = true := ⟨fun h => Nat.one_le_iff_ne_zero.2 (h1 h), h2⟩
    exact ⟨zero i h, (∑ l, x l i) / n, fun j => by simp only [centrePredictors, of_apply, if_pos h]⟩
  · have : ¬ ((hI = true → 1 ≤ i.val) ∧ cen i = true) := by
      rintro ⟨h1, h2⟩
      rcases h with ⟨h3, h4⟩ | h3
      · have := h1 h3; omega
      · rw [h2] at h3; cases h3
    simp only [centrePredictors, of_apply, if_neg this]
  · ext j i
    by_cases h : (hI = true → 1 ≤ i.val) ∧ cen i = true
    · have e : centrePredictors hI cen (centrePredictors hI cen x) j i =
          centrePredictors hI cen x j i - (∑ l, centrePredictors hI cen x l i) / n := by
        conv_lhs => rw [centrePredictors, of_apply, if_pos h]
      rw [e, zero i h]; simp
    · conv_lhs => rw [centrePredictors, of_apply, if_neg h]

example : centrePredictors true (fun _ => true) exX = !![1, -1; 1, 0; 1, 1] := by
  ext j i
  have e : ∑ l, exX l 1 = 3 := by rw [Fin.sum_univ_three]; change (0 : ℝ) + 1 + 2 = 3; norm_num
  have e0 : exX 0 1 = 0 := rfl
  have e1 : exX 1 1 = 1 := rfl
  have e2 : exX 2 1 = 2 := rfl
  have c0 : ∀ j, exX j 0 = 1 := by intro j; fin_cases j <;> rfl
  fin_cases j <;> fin_cases i <;> simp only [centrePredictors, of_apply] <;> norm_num [e, e0, e1, e2, c0]
  change exX 2 1 - 1 = 1
  rw [e2]; norm_num

/-! ## C65: start values and fixed kernels -/

theorem sum_zero_weights_not_posDef (x : Matrix (Fin n) (Fin 1) ℝ) : ¬ (xtwx x (fun _ => 0)).PosDef := by
  rw [gram_posDef_iff]
  intro h
  have := h (fun _ => 1) (by intro h; simpa using congrFun h 0)
  simp at this

theorem criterion_zero_bandwidth (c : Crit) (ker : KernelType) (D : Fin n → Fin n → ℝ) (h0 : ∀ i, D i i = 0)
    (hD : ∀ i j, 0 ≤ D i j) (hn : 0 < n) (x : Matrix (Fin n) (Fin 1) ℝ) (y : Fin n → ℝ) :
    varCriterion c x y (Res.tabulate n fun i => BandwidthWeight.weight ⟨0, false, ker⟩ (D i)) = dblMax := by
  cases hr : Res.tabulate n fun i => BandwidthWeight.weight ⟨0, false, ker⟩ (D i) with
  | ok W =>
    have hW : ∀ i, BandwidthWeight.weight ⟨0, false, ker⟩ (D i) = .ok (W i) := Res.tabulate_eq_ok.1 hr
    have hk : ∀ i j, kernelAt ker (D i j) 0 = .ok (W i j) := by
      intro i
      have := hW i
      simp only [BandwidthWeight.weight, Bool.false_eq_true, if_false, kernelVec] at this
      exact Res.tabulate_eq_ok.1 this
    have hz : W = fun _ _ => 0 := by
      funext i j
      have h1 := hk ⟨0, hn⟩ ⟨0, hn⟩
      have h2 := hk i j
      rw [h0] at h1
      cases ker
      · simp [kernelAt, gaussianKernel] at h1
      · simp [kernelAt, exponentialKernel] at h1
      · simp [kernelAt, bisquareKernel] at h1
      · simp [kernelAt, tricubeKernel] at h1
      · simp only [kernelAt, boxcarKernel, less, not_lt.2 (hD i j), if_false, Res.ok.injEq] at h2
        linarith
    subst hz
    have hnp := sum_zero_weights_not_posDef x
    have hmem : (⟨0, hn⟩ : Fin n) ∈ workRange n 0 n := mem_workRange.2 ⟨Nat.zero_le _, hn⟩
    cases c
    · have : fitCoreCVSerial x y (fun _ _ => 0) 0 n (fun _ => false) = .throw .singular := by
        refine serialFor_fail (fun i => localBeta_cases x y _) _ _ _ (fun _ _ => rfl) ⟨_, hmem, ?_⟩
        rcases localBeta_cases x y (cvWeight (fun _ _ => 0) ⟨0, hn⟩) with ⟨r, h⟩ | h
        · exfalso
          apply hnp
          have := (localBeta_eq_ok.1 h).1
          have e : cvWeight (fun _ _ => (0 : ℝ)) ⟨0, hn⟩ = fun _ => 0 := by
            funext l; simp [cvWeight, Function.update_apply]
          rwa [e] at this
        · exact h
      simp only [varCriterion, varCriterionCV, this, criterionCV]
    · have : fitCoreSHatSerial x y (fun _ _ => 0) 0 n (fun _ => false) = .throw .singular := by
        refine serialFor_fail (fun i => localFit_cases x y _ _) _ _ _ (fun _ _ => rfl) ⟨_, hmem, ?_⟩
        rcases localFit_cases x y (fun _ => 0) (x ⟨0, hn⟩) with ⟨r, h⟩ | h
        · exact absurd (localFit_eq_ok.1 h).1 hnp
        · exact h
      simp only [varCriterion, varCriterionAIC, this, criterionAIC]
  | throw e => rfl
  | ub => rfl
  | nonfinite => rfl

/-- **C65 (start values with fixed kernels do not work).** A user who gives a start value for a bandwidth (type `Initial`) of a
fixed kernel and no explicit search bounds gets an error instead of a fit, for every data set, kernel, start value and criterion:
the search runs between 0 and 0, both its candidates are unusable, and back-fitting throws. -/
theorem C65_initial_fixed_kernel_fails (cr : Crit) (D : Fin n → Fin n → ℝ) (h0 : ∀ i, D i i = 0) (hD : ∀ i j, 0 ≤ D i j) (hn : 0 < n)
    (dist : ℝ × ℝ) (aL : ℝ) (x : Matrix (Fin n) (Fin 1) ℝ) (y : Fin n → ℝ) (b0 : BandwidthWeight) (hb : b0.mAdaptive = false) :
    mgwrSelect cr D (mgwrBounds .Initial b0.mAdaptive aL none none n dist) x y b0 = .throw .runtime := by
  have hbd : mgwrBounds .Initial b0.mAdaptive aL none none n dist = (0, 0) := by simp [mgwrBounds, hb]
  rw [hbd]
  unfold mgwrSelect optimize
  simp only [goldenInit, hb, sub_self, mul_zero, add_zero, Bool.false_eq_true, if_false, and_self, not_true_eq_false]
  rw [criterion_zero_bandwidth cr b0.mKernel D h0 hD hn x y]
  simp

/-- The whole fit then throws: one variable of type `Initial` suffices, here the first. -/
theorem C65_fit_fails (c : MgwrCfg n (k + 1)) (e : BfEnv n (k + 1)) (hs : e.stopIter 0 = false ∧ e.stopVar 0 0 = false)
    (hthr : c.critThreshold < dblMax) (hmax : 0 < c.maxIter) (a : FitAcc n (k + 1)) (init : Fin (k + 1) → InitType)
    (bw : Fin (k + 1) → BandwidthWeight) (hi : init 0 = .Initial) (hb : (bw 0).mAdaptive = false) (cr : Crit)
    (D : Fin n → Fin n → ℝ) (h0 : ∀ i, D i i = 0) (hD : ∀ i j, 0 ≤ D i j) (hn : 0 < n) (dist : ℝ × ℝ) (aL : ℝ)
    (hsel : ∀ it y b, e.select it 0 y b = mgwrSelect cr D (mgwrBounds (init 0) b.mAdaptive aL none none n dist) (colOf c.x 0) y b) :
    backfitting c e (bfInit c a init bw) = .throw .runtime := by
  obtain ⟨m, hm⟩ : ∃ m, c.maxIter = m + 1 := ⟨c.maxIter - 1, by omega⟩
  have hv : bfVar c e 0 0 (bfInit c a init bw) = .throw .runtime := by
    unfold bfVar
    rw [if_neg (by simp [hs.2])]
    have : bfSearch c e 0 0 (bfInit c a init bw) = .throw .runtime := by
      unfold bfSearch
      rw [if_neg (by simp [bfInit, hi]), hsel, hi]
      have := C65_initial_fixed_kernel_fails cr D h0 hD hn dist aL (colOf c.x 0) (partialResid c 0 (bfInit c a init bw)) (bw 0) hb
      rw [show (bfInit c a init bw).bw 0 = bw 0 from rfl, this]
      rfl
    rw [this]; rfl
  unfold backfitting
  rw [hm]
  simp only [bfLoop, hs.1, gt_iff_lt, hthr, decide_true, Bool.true_eq_false, Bool.false_eq_true, if_false]
  rw [List.finRange_succ]
  simp only [bfVars, hv, Res.bind]

end Verif.Props

import Verif.Model.GWRMultiscaleRun
import Verif.Props.GWRMultiscale

/-!
# C99: a multiscale run from coordinates to coefficients
-/

namespace Verif.Props
open Verif Verif.Model Verif.Spec Matrix Classical

variable {n k : ℕ}

theorem distRows_planar {c : DynMat} {D : Fin n → Fin n → ℝ} :
    distRows ⟨false, some (c, c)⟩ n = .ok D → ∀ i j : Fin n, D i j = plane (c.val i) (c.val j) := by
  unfold distRows
  rw [Res.tabulate_eq_ok]
  intro h i j
  have := h i
  rw [Res.bind_eq_ok'] at this
  obtain ⟨l, hl, h2⟩ := this
  simp only [CRSDistance.distance] at hl
  split at hl
  · rw [crsDistRow_planar] at hl
    cases Res.ok.inj hl
    unfold rowToVec at h2
    split at h2
    · rw [← Res.ok.inj h2]; simp [euclid_eq_plane]
    · cases h2
  · cases hl

/-- A search returns the kernel kind it was given, and within ordered bounds if the bandwidth is fixed. -/
theorem mgwrSelect_spec {c : Crit} {D : Fin n → Fin n → ℝ} {bd : ℝ × ℝ} {x : Matrix (Fin n) (Fin 1) ℝ} {y : Fin n → ℝ}
    {b0 b : BandwidthWeight} (h : mgwrSelect c D bd x y b0 = .ok b) :
    b.mKernel = b0.mKernel ∧ b.mAdaptive = b0.mAdaptive ∧
      (b0.mAdaptive = false → bd.1 ≤ bd.2 → bd.1 ≤ b.mBandwidth ∧ b.mBandwidth ≤ bd.2) := by
  unfold mgwrSelect at h
  refine ⟨(C17_kernel_kind_kept _ _ _ _ _ _ h).1, (C17_kernel_kind_kept _ _ _ _ _ _ h).2, fun hf hle => ?_⟩
  obtain ⟨e, he, hx, -⟩ := C14_returns_best_evaluated _ _ _ _ _ _ h (fun e he => (optimize_evals _ _ _ _ _ e he).1)
  rw [← hx]
  exact (C15_fixed_within_bounds b0 hf _ _ hle _ _).1 e he

/-- The bandwidths of a back-fitting run: those specified stay, the others keep their kernel kind and, if fixed, stay between bounds
every search is given. -/
theorem backfitting_bw (u : MgwrSetup n k) (x : Matrix (Fin n) (Fin k) ℝ) (D : Fin k → Fin n → Fin n → ℝ) (range : Fin k → ℝ × ℝ)
    (c : MgwrCfg n k) (a : FitAcc n k) (bw : Fin k → BandwidthWeight) (r : BfResult n k)
    (hr : backfitting c (u.env x D range) (bfInit c a u.init bw) = .ok r) (i : Fin k) :
    (u.init i = .Specified → r.state.bw i = bw i) ∧ (r.state.bw i).mKernel = (bw i).mKernel ∧
      (r.state.bw i).mAdaptive = (bw i).mAdaptive ∧
      ∀ lo hi, (bw i).mAdaptive = false → lo ≤ hi →
        mgwrBounds (u.init i) false u.adaptiveLower u.lower u.upper n (range i) = (lo, hi) →
        (lo ≤ (bw i).mBandwidth ∧ (bw i).mBandwidth ≤ hi) → lo ≤ (r.state.bw i).mBandwidth ∧ (r.state.bw i).mBandwidth ≤ hi := by
  refine (backfitting_inv c (u.env x D range) (fun s => (u.init i = .Specified → s.init i = .Specified ∧ s.bw i = bw i) ∧
      (s.bw i).mKernel = (bw i).mKernel ∧ (s.bw i).mAdaptive = (bw i).mAdaptive ∧
      ∀ lo hi, (bw i).mAdaptive = false → lo ≤ hi →
        mgwrBounds (u.init i) false u.adaptiveLower u.lower u.upper n (range i) = (lo, hi) →
        (lo ≤ (bw i).mBandwidth ∧ (bw i).mBandwidth ≤ hi) → lo ≤ (s.bw i).mBandwidth ∧ (s.bw i).mBandwidth ≤ hi)
      ?_ _ r ?_ hr).1.imp (fun h hs => (h hs).2) id
  · intro it j s p ⟨hs1, hs2, hs3, hs4⟩ hp
    obtain ⟨s1, h1, e1, e2, -, -⟩ := bfVar_search hp
    rw [e1, e2]
    rcases h1 with rfl | h1
    · exact ⟨hs1, hs2, hs3, hs4⟩
    · unfold bfSearch at h1
      split at h1
      · cases Res.ok.inj h1; exact ⟨hs1, hs2, hs3, hs4⟩
      · rename_i hns
        rw [Res.bind_eq_ok'] at h1
        obtain ⟨b, hb, h1⟩ := h1
        cases Res.ok.inj h1
        have hbw : ∀ l, (bfSelect c j b s).bw l = if l = j then b else s.bw l := by
          intro l
          unfold bfSelect
          dsimp only
          split
          · simp [Function.update_apply]
          · split <;> simp [Function.update_apply]
        by_cases hij : i = j
        · subst hij
          have hb' : mgwrSelect (u.approach i) (D i) (mgwrBounds (u.init i) (s.bw i).mAdaptive u.adaptiveLower u.lower u.upper n
            (range i)) (colOf x i) (partialResid c i s) (s.bw i) = .ok b := hb
          obtain ⟨k1, k2, k3⟩ := mgwrSelect_spec hb'
          refine ⟨fun h => absurd (hs1 h).1 hns, ?_, ?_, fun lo hi hf hle hbd _ => ?_⟩
          · rw [hbw, if_pos rfl, k1, hs2]
          · rw [hbw, if_pos rfl, k2, hs3]
          · rw [hbw, if_pos rfl]
            have hf' : (s.bw i).mAdaptive = false := hs3.trans hf
            rw [hf', hbd] at k3
            exact k3 rfl hle
        · have hin : (bfSelect c j b s).init i = s.init i := by
            unfold bfSelect
            dsimp only
            split
            · rfl
            · split <;> simp [Function.update_apply, hij]
          rw [hbw, if_neg hij, hin]
          exact ⟨hs1, hs2, hs3, hs4⟩
  · exact ⟨fun h => ⟨h, rfl⟩, rfl, rfl, fun _ _ _ _ _ h => h⟩

theorem bfVar_flag {c : MgwrCfg n k} {e : BfEnv n k} {it : ℕ} (hv : ∀ i, e.stopVar it i = false) (hf : ∀ i, e.stopFit it i = false)
    {i : Fin k} {s : BfState n k} {p : BfState n k × Bool} (h : bfVar c e it i s = .ok p) : p.2 = false := by
  unfold bfVar at h
  rw [if_neg (by simp [hv i]), Res.bind_eq_ok'] at h
  obtain ⟨s1, -, h⟩ := h
  rw [if_neg (by simp [hf i]), Res.bind_eq_ok'] at h
  obtain ⟨r, -, h⟩ := h
  cases Res.ok.inj h
  rfl

/-- Without stop requests the last state of a loop over variables is the update of the last variable. -/
theorem bfVars_last (c : MgwrCfg n k) (e : BfEnv n k) (it : ℕ) (hv : ∀ i, e.stopVar it i = false) (hf : ∀ i, e.stopFit it i = false)
    (i : Fin k) (P : BfState n k → Prop) (hP : ∀ j s p, P s → bfVar c e it j s = .ok p → P p.1) :
    ∀ (is : List (Fin k)) (s : BfState n k) (log : List (BfState n k)) (r : BfState n k × List (BfState n k)), P s →
      bfVars c e it (is ++ [i]) s log = .ok r → ∃ s1, P s1 ∧ bfVar c e it i s1 = .ok (r.1, false)
  | [], s, log, r, hs, hr => by
    simp only [List.nil_append, bfVars] at hr
    rw [Res.bind_eq_ok'] at hr
    obtain ⟨p, hp, hr⟩ := hr
    have hp2 := bfVar_flag hv hf hp
    rw [hp2] at hr
    simp only [Bool.false_eq_true, if_false] at hr
    cases Res.ok.inj hr
    exact ⟨s, hs, by rw [hp, ← hp2]⟩
  | j :: is, s, log, r, hs, hr => by
    simp only [List.cons_append, bfVars] at hr
    rw [Res.bind_eq_ok'] at hr
    obtain ⟨p, hp, hr⟩ := hr
    rw [bfVar_flag hv hf hp] at hr
    simp only [Bool.false_eq_true, if_false] at hr
    exact bfVars_last c e it hv hf i P hP is p.1 _ r (hP j s p hs hp) hr

/-- If back-fitting runs at least one iteration without stop requests, its last step updated the last variable. -/
theorem bfLoop_last {c : MgwrCfg n (k + 1)} {e : BfEnv n (k + 1)} (hi : ∀ it, e.stopIter it = false)
    (hv : ∀ it i, e.stopVar it i = false) (hf : ∀ it i, e.stopFit it i = false)
    (P : BfState n (k + 1) → Prop) (hP : ∀ it j s p, P s → bfVar c e it j s = .ok p → P p.1) :
    ∀ (m it : ℕ) (go : Bool) (r0 : ℝ) (s : BfState n (k + 1)) (log : List (BfState n (k + 1))) (hist : List ℝ)
      (r : BfResult n (k + 1)), P s →
      ((∃ it s1, P s1 ∧ bfVar c e it (Fin.last k) s1 = .ok (s, false)) ∨ (m ≠ 0 ∧ go = true)) →
      bfLoop c e m it go r0 s log hist = .ok r → ∃ it s1, P s1 ∧ bfVar c e it (Fin.last k) s1 = .ok (r.state, false)
  | 0, it, go, r0, s, log, hist, r, hs, h, hr => by
    simp only [bfLoop, Res.ok.injEq] at hr; subst hr
    rcases h with h | ⟨h, -⟩
    · exact h
    · exact absurd rfl h
  | m + 1, it, go, r0, s, log, hist, r, hs, h, hr => by
    simp only [bfLoop] at hr
    split at hr
    · rename_i hg
      cases Res.ok.inj hr
      rcases h with h | ⟨-, h⟩
      · exact h
      · rw [hg] at h; cases h
    · rw [if_neg (by simp [hi it]), Res.bind_eq_ok'] at hr
      obtain ⟨p, hp, hr⟩ := hr
      have hp' := bfVars_inv c e it (fun _ s => P s) (fun i s _ p hs hp => hP it i s p hs hp) _ _ _ p hs hp
      rw [List.finRange_succ_last] at hp
      exact bfLoop_last hi hv hf P hP m _ _ _ _ _ _ r hp'
        (Or.inl ⟨it, bfVars_last c e it (hv it) (hf it) _ P (hP it) _ _ _ p hs hp⟩) hr

/-- What a successful run went through. -/
theorem mgwrRun_ok {u : MgwrSetup n k} {o : MgwrOut n k} (h : mgwrRun u = .ok o) (hd : ∀ i, (u.dist i).mGeographic = false) :
    ∃ W0 D range bw a r,
      (∀ i, u.coords.nRows = n → ∀ j l : Fin n, D i j l = plane (u.coords.val j) (u.coords.val l)) ∧
      (∀ i, mgwrDistRange (u.init i) ⟨false, some (u.coords, u.coords)⟩ = .ok (range i)) ∧
      (∀ i, (if u.init i = .Null then u.search (centrePredictors u.hasIntercept u.centred u.x) D range i u.y (u.bw i)
        else .ok (u.bw i)) = .ok (bw i)) ∧
      fitCoreSerial (centrePredictors u.hasIntercept u.centred u.x) u.y W0 0 n true true NoStop = .ok (a, false) ∧
      backfitting (u.cfg (centrePredictors u.hasIntercept u.centred u.x) D)
        (u.env (centrePredictors u.hasIntercept u.centred u.x) D range)
        (bfInit (u.cfg (centrePredictors u.hasIntercept u.centred u.x) D) a u.init bw) = .ok r ∧
      mgwrFit (u.cfg (centrePredictors u.hasIntercept u.centred u.x) D)
        (u.env (centrePredictors u.hasIntercept u.centred u.x) D range) W0 u.init bw = .ok o ∧
      o.betas = r.state.betas ∧ o.bw = r.state.bw := by
  unfold mgwrRun at h
  dsimp only at h
  rw [Res.bind_eq_ok'] at h
  obtain ⟨W0, -, h⟩ := h
  rw [Res.bind_eq_ok'] at h
  obtain ⟨d', hd', h⟩ := h
  rw [Res.bind_eq_ok'] at h
  obtain ⟨D, hD, h⟩ := h
  rw [Res.bind_eq_ok'] at h
  obtain ⟨range, hra, h⟩ := h
  rw [Res.bind_eq_ok'] at h
  obtain ⟨bw, hbw, h⟩ := h
  rw [Res.tabulate_eq_ok] at hd' hD hra hbw
  have e : ∀ i, d' i = ⟨false, some (u.coords, u.coords)⟩ := fun i => by
    obtain ⟨-, -, e⟩ := bindLocations_eq_ok.1 (hd' i)
    rw [e, hd i]
  have hfit := h
  unfold mgwrFit at h
  rw [Res.bind_eq_ok'] at h
  obtain ⟨⟨a, t⟩, h1, h⟩ := h
  rw [Res.bind_eq_ok'] at h
  obtain ⟨r, h2, h⟩ := h
  have ht : t = false := serialFor_nostop _ _ _ h1
  subst ht
  cases Res.ok.inj h
  exact ⟨W0, D, range, bw, a, r, fun i _ => distRows_planar (by rw [← e i]; exact hD i), fun i => by rw [← e i]; exact hra i, hbw, h1,
    h2, hfit, rfl, rfl⟩

/-- **C99 (bandwidths).** After a run on planar coordinates, every variable with a specified bandwidth has the bandwidth the caller
set. All variables have the kernel and the kind of bandwidth the caller set. A fixed bandwidth chosen automatically lies between the
bounds the caller set, or between 0 and the largest distance of two observations if the caller set none. -/
theorem C99_bandwidths (u : MgwrSetup n k) (o : MgwrOut n k) (h : mgwrRun u = .ok o) (hd : ∀ i, (u.dist i).mGeographic = false)
    (i : Fin k) :
    (u.init i = .Specified → o.bw i = u.bw i) ∧
    (o.bw i).mKernel = (u.bw i).mKernel ∧ (o.bw i).mAdaptive = (u.bw i).mAdaptive ∧
    ((u.bw i).mAdaptive = false → ∀ lo hi, u.lower = some lo → u.upper = some hi → lo ≤ hi →
      (u.init i = .Null ∨ (lo ≤ (u.bw i).mBandwidth ∧ (u.bw i).mBandwidth ≤ hi)) →
      lo ≤ (o.bw i).mBandwidth ∧ (o.bw i).mBandwidth ≤ hi) ∧
    ((u.bw i).mAdaptive = false → u.lower = none → u.upper = none → u.init i = .Null → 0 < n → u.coords.nRows = n →
      (∀ j l : Fin n, plane (u.coords.val j) (u.coords.val l) ≤ dblMax) →
      0 ≤ (o.bw i).mBandwidth ∧ ∃ j l : Fin n, (o.bw i).mBandwidth ≤ plane (u.coords.val j) (u.coords.val l)) := by
  obtain ⟨W0, D, range, bw, a, r, hD, hra, hbw, h1, h2, -, -, hob⟩ := mgwrRun_ok h hd
  rw [hob]
  obtain ⟨k1, k2, k3, k4⟩ := backfitting_bw u _ D range _ a bw r h2 i
  have hb := hbw i
  by_cases hN : u.init i = .Null
  · rw [if_pos hN] at hb
    obtain ⟨b1, b2, b3⟩ := mgwrSelect_spec hb
    refine ⟨fun hs => absurd (hN.symm.trans hs) (by simp), k2.trans b1, k3.trans b2, fun hf lo hi hlo hhi hle _ => ?_,
      fun hf hlo hhi _ hn hrow hmax => ?_⟩
    · have hbd : mgwrBounds (u.init i) false u.adaptiveLower u.lower u.upper n (range i) = (lo, hi) := by
        simp [mgwrBounds, hlo, hhi]
      rw [hf, hbd] at b3
      exact k4 lo hi (b2.trans hf) hle hbd (b3 rfl hle)
    · obtain ⟨M, m0, hM, hm, hall, ⟨q, l, hql, hMl⟩, ⟨q', l', hql', hml⟩⟩ := C08_max_min_sharp u.coords u.coords (by omega) (by omega)
        (fun i hi j hj => by rw [euclid_eq_plane]; exact hmax ⟨i, hrow ▸ hi⟩ ⟨j, hrow ▸ hj⟩)
      have row : ∀ (i : ℕ) (l : List ℝ), (⟨false, some (u.coords, u.coords)⟩ : CRSDistance).distance i = .ok l →
          i < n ∧ l = (List.range n).map fun j => plane (u.coords.val i) (u.coords.val j) := fun i l hl => by
        simp only [CRSDistance.distance] at hl
        split at hl
        · rw [crsDistRow_planar, hrow] at hl
          rw [← Res.ok.inj hl]
          exact ⟨by omega, by simp only [euclid_eq_plane]⟩
        · cases hl
      have hr' := hra i
      rw [mgwrDistRange, if_pos hN, hM, hm] at hr'
      simp only [Res.bind, Res.ok.injEq] at hr'
      have hbd : mgwrBounds (u.init i) false u.adaptiveLower u.lower u.upper n (range i) = (m0, M) := by
        rw [← hr']
        simp [mgwrBounds, hlo, hhi, hN]
      obtain ⟨hq, rfl⟩ := row _ _ hql
      obtain ⟨hq', rfl⟩ := row _ _ hql'
      have hle : m0 ≤ M := (hall _ _ hql m0 |> fun _ => (hall _ _ hql _ hMl).1)
      obtain ⟨l, hl, e⟩ := List.mem_map.1 hMl
      obtain ⟨l', hl', e'⟩ := List.mem_map.1 hml
      rw [hf, hbd] at b3
      obtain ⟨c1, c2⟩ := k4 m0 M (b2.trans hf) hle hbd (b3 rfl hle)
      refine ⟨le_trans ?_ c1, ⟨q, hq⟩, ⟨l, by simpa using hl⟩, c2.trans e.ge⟩
      rw [← e']
      exact Real.sqrt_nonneg _
  · rw [if_neg hN] at hb
    have hb := Res.ok.inj hb
    rw [← hb] at k1 k2 k3 k4
    refine ⟨k1, k2, k3, fun hf lo hi hlo hhi hle hor => ?_, fun _ _ _ hN' => absurd hN' hN⟩
    exact k4 lo hi hf hle (by simp [mgwrBounds, hlo, hhi]) (hor.resolve_left hN)

/-- The predictors after centring: column means are subtracted from the columns marked, never from an intercept. -/
def Centred (u : MgwrSetup n k) (x : Matrix (Fin n) (Fin k) ℝ) : Prop :=
  ∀ l i, x l i = if u.centred i = true ∧ ¬ (u.hasIntercept = true ∧ i.val = 0) then u.x l i - (∑ m, u.x m i) / n else u.x l i

theorem centrePredictors_centred (u : MgwrSetup n k) : Centred u (centrePredictors u.hasIntercept u.centred u.x) := by
  intro l i
  simp only [centrePredictors, of_apply]
  by_cases h1 : u.hasIntercept = true <;> by_cases h2 : u.centred i = true <;> by_cases h3 : i.val = 0 <;>
    simp [h1, h2, h3, Nat.one_le_iff_ne_zero]

/-- **C99 (coefficients).** If a run on planar coordinates does at least one iteration, the coefficients of the last variable are those
of geographically weighted regression of the response minus the other components on that variable, with the reported bandwidth. -/
theorem C99_last_variable (u : MgwrSetup n (k + 1)) (o : MgwrOut n (k + 1)) (h : mgwrRun u = .ok o)
    (hd : ∀ i, (u.dist i).mGeographic = false) (hrow : u.coords.nRows = n) (hit : 0 < u.maxIter) (hthr : u.critThreshold < dblMax)
    (hf : (o.bw (Fin.last k)).mAdaptive = false) (hp : 0 < (o.bw (Fin.last k)).mBandwidth) :
    ∃ x, Centred u x ∧
      IsGWRFixed (o.bw (Fin.last k)).mKernel (o.bw (Fin.last k)).mBandwidth (fun j : Fin n => u.coords.val j)
        (fun l : Fin n => u.coords.val l) (Matrix.of fun l (_ : Fin 1) => x l (Fin.last k))
        (fun l => u.y l - ∑ m ∈ Finset.univ.erase (Fin.last k), x l m * o.betas l m)
        (Matrix.of fun j _ => o.betas j (Fin.last k)) := by
  obtain ⟨W0, D, range, bw, a, r, hD, hra, hbw, h1, h2, -, hbe, hob⟩ := mgwrRun_ok h hd
  have hc := centrePredictors_centred u
  generalize centrePredictors u.hasIntercept u.centred u.x = x at *
  refine ⟨x, hc, ?_⟩
  have hgo : decide (dblMax > u.critThreshold) = true := by simpa using hthr
  obtain ⟨it, s1, hs1, hs⟩ := bfLoop_last (c := u.cfg x D) (e := u.env x D range) (fun _ => rfl) (fun _ _ => rfl) (fun _ _ => rfl)
    (HatConsistent x u.y) (fun it i s p hs hp => bfVar_hat (u.cfg x D) rfl _ it i s p hs hp) _ _ _ _ _ _ _ r
    (hat_init (u.cfg x D) W0 a h1 u.init bw) (Or.inr ⟨hit.ne', hgo⟩) h2
  obtain ⟨w1, w2⟩ := C64_update_is_weighted_least_squares (u.cfg x D) rfl (u.env x D range) it _ (fun _ => rfl) s1 _ hs1 hs
  intro j
  have := w1 j
  rw [hob] at hf hp ⊢
  rw [hbe]
  have hw : (u.cfg x D).wt (Fin.last k) (r.state.bw (Fin.last k)) j =
      fun l : Fin n => kernelFormula (r.state.bw (Fin.last k)).mKernel (r.state.bw (Fin.last k)).mBandwidth
        (plane (u.coords.val j) (u.coords.val l)) := by
    generalize r.state.bw (Fin.last k) = b at hf hp
    obtain ⟨w, ad, kn⟩ := b
    simp only at hf hp
    subst hf
    simp only [MgwrSetup.cfg]
    rw [C97_fixed_kernel_formula _ _ hp]
    funext l
    simp only [hD _ hrow]
  rw [hw] at this
  have hy : (fun l => u.y l - ∑ m ∈ Finset.univ.erase (Fin.last k),
      x l m * r.state.betas l m) =
      fun l => (u.cfg x D).y l - ∑ m ∈ Finset.univ.erase (Fin.last k),
        (u.cfg x D).x l m * s1.betas l m := by
    funext l
    congr 1
    refine Finset.sum_congr rfl fun m hm => ?_
    rw [w2 l m (Finset.ne_of_mem_erase hm)]
    rfl
  rw [hy]
  exact this

/-- **C99 (one predictor).** With a single predictor the multiscale model is geographically weighted regression with the reported
bandwidth. -/
theorem C99_single_predictor (u : MgwrSetup n 1) (o : MgwrOut n 1) (h : mgwrRun u = .ok o) (hd : ∀ i, (u.dist i).mGeographic = false)
    (hrow : u.coords.nRows = n) (hit : 0 < u.maxIter) (hthr : u.critThreshold < dblMax) (hf : (o.bw 0).mAdaptive = false)
    (hp : 0 < (o.bw 0).mBandwidth) :
    ∃ x, Centred u x ∧ IsGWRFixed (o.bw 0).mKernel (o.bw 0).mBandwidth (fun j : Fin n => u.coords.val j)
      (fun l : Fin n => u.coords.val l) x u.y o.betas := by
  obtain ⟨x, hx, hg⟩ := C99_last_variable u o h hd hrow hit hthr hf hp
  refine ⟨x, hx, ?_⟩
  have e0 : (Fin.last 0 : Fin 1) = 0 := rfl
  have e1 : (Matrix.of fun l (_ : Fin 1) => x l (Fin.last 0)) = x := by
    ext l m; rw [Subsingleton.elim m 0]; rfl
  have e2 : (Matrix.of fun j (_ : Fin 1) => o.betas j (Fin.last 0)) = o.betas := by
    ext l m; rw [Subsingleton.elim m 0]; rfl
  have e3 : (fun l => u.y l - ∑ m ∈ Finset.univ.erase (Fin.last 0), x l m * o.betas l m) = u.y := by
    funext l; simp [Finset.univ_unique, e0]
  rw [e1, e2, e3] at hg
  exact hg

/-- **C99 (diagnostics).** The diagnostics of a run are those of its coefficients: the residual sum of squares is that of the centred
predictors, and the other values are the textbook functions of it and of a matrix that maps the response to the fitted values. -/
theorem C99_diagnostics (u : MgwrSetup n k) (o : MgwrOut n k) (h : mgwrRun u = .ok o) (hd : ∀ i, (u.dist i).mGeographic = false) :
    ∃ x, Centred u x ∧ o.diagnostic.RSS = residualSS x u.y o.betas ∧
      ∃ S : Matrix (Fin n) (Fin n) ℝ, (∀ j, ∑ i, x j i * o.betas j i = (S *ᵥ u.y) j) ∧
        o.diagnostic.ENP = 2 * trace S - trace (S * Sᵀ) ∧ o.diagnostic.EDF = n - 2 * trace S + trace (S * Sᵀ) ∧
        (0 < o.diagnostic.RSS → trace S ≠ n - 2 → o.diagnostic.AICc = .ok (aiccFormula n o.diagnostic.RSS (trace S))) := by
  obtain ⟨W0, D, range, bw, a, r, hD, hra, hbw, h1, h2, hfit, hbe, hob⟩ := mgwrRun_ok h hd
  obtain ⟨S, s1, s2, s3, s4, s5, -⟩ := C34_diagnostics (u.cfg _ D) rfl _ W0 u.init bw o hfit
  refine ⟨_, centrePredictors_centred u, ?_, S, s1, s3, s4, s5⟩
  rw [s2]
  simp only [residualSS]
  refine Finset.sum_congr rfl fun j _ => ?_
  rw [← s1 j]
  rfl

/-! ## The hypotheses are met: an intercept model on three points of a line, with automatic bandwidth -/

/-- A response that follows the model exactly has cross-validation score 0. -/
theorem cv_exact (x : Matrix (Fin n) (Fin k) ℝ) (b : Fin k → ℝ) (W : Fin n → Fin n → ℝ) (hp : ∀ i, (xtwx x (cvWeight W i)).PosDef) :
    criterionCV x (x *ᵥ b) false (fitCoreCVSerial x (x *ᵥ b) W 0 n (fun _ => false)) = 0 := by
  have e : fitCoreCVSerial x (x *ᵥ b) W 0 n (fun _ => false) = _ :=
    serialFor_ok (fun _ => b) _ 0 _ (fun _ _ => rfl) (fun i _ => localBeta_eq_ok.2 ⟨hp i, by
      rw [← xtwx_mulVec, inv_mul_gram (hp i)]⟩)
  rw [e]
  have hb := betaLoop_ok (nodup_workRange n 0 n) e
  simp only [criterionCV, and_self, if_true]
  have hr : ∀ i, (List.foldl (fun s i => setRow i b s) (0 : Matrix (Fin n) (Fin k) ℝ) (workRange n 0 n)) i = b := by
    intro i
    have := (localBeta_eq_ok.1 (hb.1 i (mem_workRange.2 ⟨Nat.zero_le _, i.isLt⟩))).2
    rw [← xtwx_mulVec, inv_mul_gram (hp i)] at this
    exact this
  have hrss : rss x (x *ᵥ b) (List.foldl (fun s i => setRow i b s) (0 : Matrix (Fin n) (Fin k) ℝ) (workRange n 0 n)) = 0 := by
    unfold rss
    refine Finset.sum_eq_zero fun i _ => ?_
    have : (x *ᵥ b) i - fitted x
        (List.foldl (fun s i => setRow i b s) (0 : Matrix (Fin n) (Fin k) ℝ) (workRange n 0 n)) i = 0 := by
      unfold fitted
      rw [hr i, mulVec_eq]
      rw [sub_eq_zero]
      exact Finset.sum_congr rfl fun j _ => mul_comm _ _
    rw [this, mul_zero]
  rw [hrss, finiteOrMax, abs_zero]
  split <;> [rfl; (rename_i h; exact absurd ((by norm_num : (0 : ℝ) ≤ 1000).trans dblMax_big) h)]

/-- A search in which every bandwidth between the bounds scores 0 succeeds. -/
theorem search_zero (b0 : BandwidthWeight) (hb : b0.mAdaptive = false) (l u : ℝ) (hlu : l ≤ u) (F : BandwidthWeight → ℝ)
    (hF : ∀ b : BandwidthWeight, b.mAdaptive = false → b.mKernel = b0.mKernel → l ≤ b.mBandwidth → F b = 0) :
    ∃ b, (optimize b0 l u (fun _ b => (true, F b)) []).out = .ok b ∧ l ≤ b.mBandwidth ∧ b.mAdaptive = false ∧
      b.mKernel = b0.mKernel := by
  suffices h : ∃ b, (optimize b0 l u (fun _ b => (true, F b)) []).out = .ok b by
    obtain ⟨b, h⟩ := h
    obtain ⟨e, he, hx, -⟩ := C14_returns_best_evaluated _ _ _ _ _ _ h (fun e he => (optimize_evals _ _ _ _ _ e he).1)
    have h2 := C17_kernel_kind_kept _ _ _ _ _ _ h
    exact ⟨b, h, hx ▸ ((C15_fixed_within_bounds b0 hb _ _ hlu _ _).1 e he).1, h2.2.trans hb, h2.1⟩
  have hg := goldenR_bounds
  generalize ho : (fun (_ : ℕ) b => (true, F b)) = o
  have hf1 : (goldenInit b0 l u o []).f1 = 0 := by
    rw [← ho]
    simp only [goldenInit, hb, Bool.false_eq_true, if_false]
    refine hF _ rfl rfl ?_
    simp only
    nlinarith [hg.1, hg.2]
  have hmax : (0 : ℝ) < dblMax := lt_of_lt_of_le (by norm_num) dblMax_big
  rcases optimize_cases b0 l u o [] with ⟨-, h⟩ | ⟨-, -, h1, -, -⟩ | ⟨-, -, -, -, -, h⟩ | ⟨-, -, -, -, h⟩
  · exact ⟨_, by rw [h]⟩
  · rw [hf1] at h1; exact absurd h1 hmax.ne
  · exact ⟨_, by rw [h]⟩
  · exact ⟨_, by rw [h]⟩

def exOne : Matrix (Fin 3) (Fin 1) ℝ := Matrix.of fun _ _ => 1

noncomputable def exRun : MgwrSetup 3 1 :=
  { coords := lineCoords 10, x := exOne, y := exOne *ᵥ fun _ => 2, hasIntercept := true, centred := fun _ => true,
    dist0 := ⟨false, none⟩, bw0 := ⟨50, false, .Boxcar⟩, dist := fun _ => ⟨false, none⟩, bw := fun _ => ⟨50, false, .Boxcar⟩,
    init := fun _ => .Null, approach := fun _ => .CV, lower := some 100, upper := some 200, adaptiveLower := 10,
    threshold := fun _ => 1, retry := 5, critType := .CVR, critThreshold := 1, maxIter := 1 }

theorem exOne_posDef (w : Fin 3 → ℝ) (h0 : ∀ l, 0 ≤ w l) (h : ∃ l, 0 < w l) : (xtwx exOne w).PosDef := by
  rw [gram_posDef_iff_determined _ _ h0]
  intro b hb
  obtain ⟨l, hl⟩ := h
  have := hb l hl
  simp [exOne] at this
  funext j
  rw [Subsingleton.elim j 0, this]; rfl

theorem exOne_loo (W : Fin 3 → Fin 3 → ℝ) (hW : ∀ i l, W i l = 1) (i : Fin 3) : (xtwx exOne (cvWeight W i)).PosDef := by
  refine exOne_posDef _ (fun l => ?_) ⟨i + 1, ?_⟩
  · simp only [cvWeight, Function.update_apply]
    split
    · exact le_rfl
    · rw [hW]; norm_num
  · have : i + 1 ≠ i := by fin_cases i <;> decide
    simp only [cvWeight, Function.update_apply, if_neg this, hW]
    norm_num

theorem line_far (bw : ℝ) (hbw : 100 ≤ bw) (i j : Fin 3) : |(10 : ℝ)| * |((j : ℕ) : ℝ) - (i : ℕ)| < bw := by
  have h1 : |((j : ℕ) : ℝ) - (i : ℕ)| ≤ 2 := by
    have hi : ((i : ℕ) : ℝ) ≤ 2 := by exact_mod_cast Nat.lt_succ_iff.1 i.isLt
    have hj : ((j : ℕ) : ℝ) ≤ 2 := by exact_mod_cast Nat.lt_succ_iff.1 j.isLt
    have hi0 : (0 : ℝ) ≤ (i : ℕ) := Nat.cast_nonneg _
    have hj0 : (0 : ℝ) ≤ (j : ℕ) := Nat.cast_nonneg _
    rw [abs_le]; constructor <;> linarith
  rw [abs_of_pos (by norm_num : (0 : ℝ) < 10)]
  linarith

theorem ex_run : ∃ o, mgwrRun exRun = .ok o := by
  have hx : centrePredictors exRun.hasIntercept exRun.centred exRun.x = exOne := by
    ext j i
    rw [Subsingleton.elim i 0]
    simp [centrePredictors, exRun]
  -- the initial model
  have h1 : ∃ W0, mgwrInitialWeights exRun exOne = .ok W0 ∧ ∀ i l, W0 i l = 1 := by
    obtain ⟨b, hb, hl, hf, hk⟩ := search_zero ⟨50, false, .Boxcar⟩ rfl 100 200 (by norm_num)
      (gwrCriterion .CV ⟨false, some (lineCoords 10, lineCoords 10)⟩ exOne (exOne *ᵥ fun _ => 2)) (by
        rintro ⟨bw, ad, kn⟩ h2 h3 h4
        simp only at h2 h3 h4
        subst h2 h3
        unfold gwrCriterion
        rw [line_weights]
        exact cv_exact _ _ _ (exOne_loo _ fun i l => if_pos (line_far bw h4 i l)))
    obtain ⟨bw, ad, kn⟩ := b
    simp only at hl hf hk
    subst hf hk
    refine ⟨fun i l => if |(10 : ℝ)| * |((l : ℕ) : ℝ) - (i : ℕ)| < bw then 1 else 0, ?_, fun i l => if_pos (line_far bw hl i l)⟩
    simp only [mgwrInitialWeights, exRun, zero_lt_one, dite_true, Res.bind]
    rw [bindLocations_eq_ok.2 ⟨rfl, rfl, rfl⟩]
    simp only [gwrSelectBandwidth, Res.bind, Option.getD_some]
    rw [hb]
    exact line_weights 10 bw
  obtain ⟨W0, hW0, hone⟩ := h1
  -- the distances
  have h2 : (Res.tabulate 1 fun i => bindLocations (exRun.dist i) exRun.coords exRun.coords) =
      .ok (fun _ => ⟨false, some (lineCoords 10, lineCoords 10)⟩) :=
    Res.tabulate_eq_ok.2 fun i => bindLocations_eq_ok.2 ⟨rfl, rfl, rfl⟩
  have h3 : (Res.tabulate 1 fun _ => distRows ⟨false, some (lineCoords 10, lineCoords 10)⟩ 3) =
      .ok (fun _ i j => |(10 : ℝ)| * |((j : ℕ) : ℝ) - (i : ℕ)|) := by
    refine Res.tabulate_eq_ok.2 fun _ => ?_
    unfold distRows
    refine Res.tabulate_eq_ok.2 fun i => ?_
    simp only [CRSDistance.distance]
    rw [if_pos (show i.val < (lineCoords 10).nRows from i.isLt), crsDistRow_planar]
    simp only [Res.bind]
    unfold rowToVec
    rw [dif_pos (by simp [lineCoords])]
    congr 1
    funext j
    simp [line_dist]
  have h4 : ∃ range, (Res.tabulate 1 fun i => mgwrDistRange (exRun.init i) ⟨false, some (lineCoords 10, lineCoords 10)⟩) = .ok range := by
    have htot : ∀ i ∈ List.range (lineCoords 10).nRows, ∃ l, crsDistRow false (lineCoords 10) (lineCoords 10) i = .ok l ∧ l ≠ [] := by
      intro i _
      refine ⟨_, crsDistRow_planar _ _ i, ?_⟩
      simp [lineCoords]
    obtain ⟨M, hM⟩ := maxLoop_total 0 htot
    obtain ⟨m, hm⟩ := minLoop_total dblMax htot
    refine ⟨fun _ => (m, M), Res.tabulate_eq_ok.2 fun i => ?_⟩
    have e1 : (⟨false, some (lineCoords 10, lineCoords 10)⟩ : CRSDistance).maxDistance = .ok M := hM
    have e2 : (⟨false, some (lineCoords 10, lineCoords 10)⟩ : CRSDistance).minDistance = .ok m := hm
    simp only [mgwrDistRange, exRun, if_true, e1, e2, Res.bind]
  obtain ⟨range, h4⟩ := h4
  -- any search for the response succeeds
  have hsel : ∀ (i : Fin 1) (b : BandwidthWeight), b.mAdaptive = false → b.mKernel = .Boxcar → ∃ b',
      exRun.search exOne (fun _ i j => |(10 : ℝ)| * |((j : ℕ) : ℝ) - (i : ℕ)|) range i (exOne *ᵥ fun _ => 2) b = .ok b' ∧
      100 ≤ b'.mBandwidth ∧ b'.mAdaptive = false ∧ b'.mKernel = .Boxcar := by
    intro i b hf hk
    obtain ⟨b', h1, h2, h3, h4⟩ := search_zero b hf 100 200 (by norm_num)
      (fun b => varCriterion .CV (colOf exOne i) (exOne *ᵥ fun _ => 2)
        (Res.tabulate 3 fun i => b.weight fun j : Fin 3 => |(10 : ℝ)| * |((j : ℕ) : ℝ) - (i : ℕ)|)) (by
        rintro ⟨bw, ad, kn⟩ h2 h3 h4
        simp only at h2 h3 h4
        rw [hk] at h3
        subst h2 h3
        have hw : (Res.tabulate 3 fun i : Fin 3 => (⟨bw, false, .Boxcar⟩ : BandwidthWeight).weight
            fun j : Fin 3 => |(10 : ℝ)| * |((j : ℕ) : ℝ) - (i : ℕ)|) = .ok (fun _ _ => 1) := by
          refine Res.tabulate_eq_ok.2 fun i => ?_
          rw [boxcar_fixed]
          congr 1
          funext j
          exact if_pos (line_far bw h4 i j)
        rw [hw]
        have hc : colOf exOne i = exOne := by ext a b; rfl
        rw [hc]
        exact cv_exact _ _ _ (exOne_loo _ fun _ _ => rfl))
    refine ⟨b', ?_, h2, h3, h4.trans hk⟩
    rw [← h1]
    simp [MgwrSetup.search, mgwrSelect, mgwrBounds, exRun]
  obtain ⟨b1, hb1, hl1, hf1, hk1⟩ := hsel 0 ⟨50, false, .Boxcar⟩ rfl rfl
  have h5 : (Res.tabulate 1 fun i => if exRun.init i = .Null then
      exRun.search exOne (fun _ i j => |(10 : ℝ)| * |((j : ℕ) : ℝ) - (i : ℕ)|) range i exRun.y (exRun.bw i) else .ok (exRun.bw i)) =
      .ok (fun _ => b1) := by
    refine Res.tabulate_eq_ok.2 fun i => ?_
    rw [Subsingleton.elim i 0, if_pos (show exRun.init 0 = .Null from rfl)]
    exact hb1
  -- the fit
  obtain ⟨a, ha⟩ := (C21_fit_succeeds_iff exOne (exOne *ᵥ fun _ => (2 : ℝ)) W0 (fun i l => by rw [hone]; norm_num) true true).1.2
    (fun i => (gram_posDef_iff_determined _ _ fun l => by rw [hone]; norm_num).1
      (exOne_posDef _ (fun l => by rw [hone]; norm_num) ⟨0, by rw [hone]; norm_num⟩))
  generalize hD : (fun (_ : Fin 1) (i j : Fin 3) => |(10 : ℝ)| * |((j : ℕ) : ℝ) - (i : ℕ)|) = D at *
  have hpr : partialResid (exRun.cfg exOne D) 0 (bfInit (exRun.cfg exOne D) a exRun.init fun _ => b1) = exOne *ᵥ fun _ => 2 := by
    funext j
    simp only [partialResid, bfInit, MgwrSetup.cfg, fitted, Finset.univ_unique, Finset.sum_singleton, exRun]
    rw [show (default : Fin 1) = 0 from rfl]
    ring
  obtain ⟨b2, hb2, hl2, hf2, hk2⟩ := hsel 0 b1 hf1 hk1
  have hbf : ∃ r, backfitting (exRun.cfg exOne D) (exRun.env exOne D range) (bfInit (exRun.cfg exOne D) a exRun.init fun _ => b1) =
      .ok r := by
    have hs : bfSearch (exRun.cfg exOne D) (exRun.env exOne D range) 0 0 (bfInit (exRun.cfg exOne D) a exRun.init fun _ => b1) =
        .ok (bfSelect (exRun.cfg exOne D) 0 b2 (bfInit (exRun.cfg exOne D) a exRun.init fun _ => b1)) := by
      unfold bfSearch
      rw [if_neg (by simp [bfInit, exRun]), hpr]
      change (exRun.search exOne D range 0 (exOne *ᵥ fun _ => 2) b1).bind _ = _
      rw [hb2]
      rfl
    have hbw : (bfSelect (exRun.cfg exOne D) 0 b2 (bfInit (exRun.cfg exOne D) a exRun.init fun _ => b1)).bw 0 = b2 := by
      unfold bfSelect
      dsimp only
      split
      · simp
      · split <;> simp
    have hv : ∃ s, bfVar (exRun.cfg exOne D) (exRun.env exOne D range) 0 0 (bfInit (exRun.cfg exOne D) a exRun.init fun _ => b1) =
        .ok (s, false) := by
      unfold bfVar
      rw [if_neg (by simp [MgwrSetup.env]), hs]
      simp only [Res.bind]
      rw [if_neg (by simp [MgwrSetup.env]), hbw, fitVarSerial_eq _ _ _ (show ∀ q, (exRun.env exOne D range).stopLoc 0 0 q = false from fun _ => rfl), if_pos]
      · exact ⟨_, rfl⟩
      · intro i
        have hw : (exRun.cfg exOne D).wt 0 b2 i = fun _ => 1 := by
          obtain ⟨bw, ad, kn⟩ := b2
          simp only at hl2 hf2 hk2
          subst hf2 hk2
          simp only [MgwrSetup.cfg]
          rw [boxcar_fixed]
          funext j
          rw [← hD]
          exact if_pos (line_far bw hl2 i j)
        rw [hw]
        exact exOne_posDef _ (fun _ => zero_le_one) ⟨0, one_pos⟩
    obtain ⟨s, hv⟩ := hv
    have hgo : decide (dblMax > (exRun.cfg exOne D).critThreshold) = true := by
      simp only [MgwrSetup.cfg, exRun, gt_iff_lt, decide_eq_true_eq]
      linarith [hundred_lt_dblMax]
    unfold backfitting
    rw [hgo]
    change ∃ r, bfLoop _ _ (0 + 1) 0 true _ _ _ _ = .ok r
    simp only [bfLoop, Bool.true_eq_false, if_false]
    rw [if_neg (by simp [MgwrSetup.env])]
    have hfr : List.finRange 1 = [0] := rfl
    rw [hfr]
    simp only [bfVars, hv, Res.bind, Bool.false_eq_true, if_false]
    exact ⟨_, rfl⟩
  obtain ⟨r, hr⟩ := hbf
  unfold mgwrRun
  dsimp only
  rw [hx, hW0]
  simp only [Res.bind]
  rw [h2]
  simp only
  rw [h3]
  simp only
  rw [h4]
  simp only
  rw [h5]
  simp only
  unfold mgwrFit
  change ∃ o, (fitCoreSerial exOne (exOne *ᵥ fun _ => 2) W0 0 3 true true NoStop).bind _ = .ok o
  rw [ha]
  simp only [Res.bind]
  rw [hr]
  exact ⟨_, rfl⟩

example : ∃ o, mgwrRun exRun = .ok o ∧ 100 ≤ (o.bw 0).mBandwidth ∧ ∃ x, Centred exRun x ∧
    IsGWRFixed .Boxcar (o.bw 0).mBandwidth (fun j : Fin 3 => (lineCoords 10).val j) (fun l : Fin 3 => (lineCoords 10).val l) x exRun.y
      o.betas := by
  obtain ⟨o, ho⟩ := ex_run
  obtain ⟨-, h1, h2, h3, -⟩ := C99_bandwidths exRun o ho (fun _ => rfl) 0
  have h4 := (h3 rfl 100 200 rfl rfl (by norm_num) (Or.inl rfl)).1
  have := C99_single_predictor exRun o ho (fun _ => rfl) rfl (by simp [exRun]) (by
    simp only [exRun]; linarith [hundred_lt_dblMax]) h2 (by linarith)
  rw [h1] at this
  exact ⟨o, ho, h4, this⟩

end Verif.Props

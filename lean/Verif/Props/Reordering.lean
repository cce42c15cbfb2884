import Verif.Spec.Reordering
import Verif.Props.ResponseChange
import Verif.Props.GWREquivariance

/-! # C140: whole runs do not depend on the order of the observations -/

namespace Verif.Props
open Verif Verif.Model Verif.Spec Matrix Classical

variable {n k d : ℕ}

/-! ### One fit -/

/-- Two fits that differ by the order of the observations. -/
def ReorderedAcc (σ : Equiv.Perm (Fin n)) (u v : FitAcc n k) : Prop :=
  (∀ i, v.betas i = u.betas (σ i)) ∧ (∀ i, v.se i = u.se (σ i)) ∧ v.shat = u.shat ∧ ∀ i, v.qdiag i = u.qdiag (σ i)

theorem core_reordered {x : Matrix (Fin n) (Fin k) ℝ} {y : Fin n → ℝ} {W : Fin n → Fin n → ℝ} {sS sC : Bool} {ex ex' : Exec n} (hex : ex.Valid)
    (hex' : ex'.Valid) (σ : Equiv.Perm (Fin n)) {u : FitAcc n k} (h : gwrCoreEx x y W sS sC ex = .ok u) :
    ∃ v, gwrCoreEx (permRows σ x) (y ∘ σ) (permW σ W) sS sC ex' = .ok v ∧ ReorderedAcc σ u v := by
  obtain ⟨u0, h0, e1, e2, e3, e4, -⟩ := core_serial_of hex h
  obtain ⟨v0, h1, f1, f2, f3, f4⟩ := perm_fit σ x y W sS sC u0 h0
  obtain ⟨v, hv, g1, g2, g3, g4, -⟩ := core_of_serial hex' h1
  refine ⟨v, hv, fun i => ?_, fun i => ?_, ?_, fun i => ?_⟩
  · rw [g1, f1, e1]
  · rw [g2, f2, e2]
  · rw [g3, f3, e3]
  · rw [g4, f4, e4]

theorem reordered_of {x : Matrix (Fin n) (Fin k) ℝ} {y : Fin n → ℝ} {σ : Equiv.Perm (Fin n)} {u v : FitAcc n k} (h : ReorderedAcc σ u v) :
    Reordered σ u.betas v.betas (calcDiagnostic x y u.betas u.shat) (calcDiagnostic (permRows σ x) (y ∘ σ) v.betas v.shat)
      (betasSE x y u) (betasSE (permRows σ x) (y ∘ σ) v) := by
  obtain ⟨h1, h2, h3, -⟩ := h
  refine ⟨fun i j => by rw [h1], ?_, fun i j => ?_⟩
  · rw [h3]; exact perm_diagnostic σ x u.betas v.betas y u.shat h1
  · simp only [betasSE]
    rw [h2, h3, perm_rss σ x u.betas v.betas y h1]

/-! ### The largest distance -/

theorem maxLoop_reordered {row row' : ℕ → Res (List ℝ)} {σ : Equiv.Perm (Fin n)}
    (h : ∀ (i : Fin n) l, row (σ i) = .ok l → ∃ l', row' i = .ok l' ∧ ∀ v, v ∈ l' ↔ v ∈ l) {M : ℝ}
    (hM : maxLoop row (List.range n) 0 = .ok M) : maxLoop row' (List.range n) 0 = .ok M := by
  obtain ⟨h0, h1, h2⟩ := maxLoop_spec hM
  have hrow : ∀ i ∈ List.range n, ∃ l', row' i = .ok l' ∧ l' ≠ [] ∧ ∀ v ∈ l', v ≤ M := by
    intro i hi
    obtain ⟨l, hl, hne, hb⟩ := h1 (σ ⟨i, List.mem_range.1 hi⟩) (List.mem_range.2 (Fin.isLt _))
    obtain ⟨l', hl', hm⟩ := h ⟨i, List.mem_range.1 hi⟩ l hl
    refine ⟨l', hl', fun he => ?_, fun v hv => hb v ((hm v).1 hv)⟩
    obtain ⟨v, hv⟩ := List.exists_mem_of_ne_nil _ hne
    have := (hm v).2 hv
    rw [he] at this
    cases this
  obtain ⟨M', hM'⟩ := maxLoop_total (row := row') 0 fun i hi => (hrow i hi).imp fun l h => ⟨h.1, h.2.1⟩
  obtain ⟨k0, k1, k2⟩ := maxLoop_spec hM'
  rw [hM']
  congr 1
  refine le_antisymm ?_ ?_
  · rcases k2 with e | ⟨i, hi, l, hl, hm⟩
    · rw [e]; exact h0
    · obtain ⟨l', hl', -, hb⟩ := hrow i hi
      cases Res.ok.inj (hl.symm.trans hl')
      exact hb _ hm
  · rcases h2 with e | ⟨i, hi, l, hl, hm⟩
    · rw [e]; exact k0
    · have e : σ (σ.symm ⟨i, List.mem_range.1 hi⟩) = ⟨i, List.mem_range.1 hi⟩ := Equiv.apply_symm_apply ..
      obtain ⟨l', hl', hmem⟩ := h (σ.symm ⟨i, List.mem_range.1 hi⟩) l (by rw [e]; exact hl)
      obtain ⟨l2, hl2, -, hb⟩ := k1 (σ.symm ⟨i, List.mem_range.1 hi⟩ : Fin n) (List.mem_range.2 (Fin.isLt _))
      cases Res.ok.inj (hl2.symm.trans hl')
      exact hb _ ((hmem _).2 hm)

theorem crsRow_ok {geo : Bool} {coords : DynMat} (hn : coords.nRows = n) {i : ℕ} {l : List ℝ} :
    crsDistRow geo coords coords i = .ok l ↔ ∃ f : Fin n → ℝ, l = List.ofFn f ∧ ∀ j : Fin n, crsCalc geo (coords.val i) (coords.val j) = .ok (f j) := by
  unfold crsDistRow
  rw [mapRes_eq_ok, List.forall₂_iff_get]
  constructor
  · rintro ⟨hl, hg⟩
    have hl : n = l.length := by simpa [hn] using hl
    refine ⟨fun j => l[j]'(hl ▸ j.isLt), ?_, fun j => ?_⟩
    · exact List.ext_getElem (by simp [← hl]) fun j h1 h2 => by simp
    · simpa using hg j (by simp [hn]) (hl ▸ j.isLt)
  · rintro ⟨f, rfl, hf⟩
    refine ⟨by simp [hn], fun j h1 h2 => ?_⟩
    have hj : j < n := by simpa using h2
    simpa using hf ⟨j, hj⟩

theorem crsRow_reordered {geo : Bool} {σ : Equiv.Perm (Fin n)} {c c' : DynMat} (hp : PermCoords n σ c c') (i : Fin n) {f : Fin n → ℝ}
    (h : crsDistRow geo c c (σ i) = .ok (List.ofFn f)) : crsDistRow geo c' c' i = .ok (List.ofFn fun j => f (σ j)) := by
  obtain ⟨g, hg, hf⟩ := (crsRow_ok hp.1).1 h
  obtain rfl := List.ofFn_injective hg
  exact (crsRow_ok hp.2.1).2 ⟨_, rfl, fun j => by rw [hp.2.2.2, hp.2.2.2]; exact hf (σ j)⟩

theorem mem_reordered (σ : Equiv.Perm (Fin n)) (f : Fin n → ℝ) (v : ℝ) : v ∈ List.ofFn (fun j => f (σ j)) ↔ v ∈ List.ofFn f := by
  simp only [List.mem_ofFn]
  exact ⟨fun ⟨j, h⟩ => ⟨σ j, h⟩, fun ⟨j, h⟩ => ⟨σ.symm j, by simpa using h⟩⟩

theorem max_reordered {geo : Bool} {σ : Equiv.Perm (Fin n)} {c c' : DynMat} (hp : PermCoords n σ c c') {M : ℝ}
    (h : (⟨geo, some (c, c)⟩ : CRSDistance).maxDistance = .ok M) : (⟨geo, some (c', c')⟩ : CRSDistance).maxDistance = .ok M := by
  simp only [CRSDistance.maxDistance, hp.1, hp.2.1] at h ⊢
  refine maxLoop_reordered (σ := σ) (fun i l hl => ?_) h
  obtain ⟨f, rfl, -⟩ := (crsRow_ok hp.1).1 hl
  exact ⟨_, crsRow_reordered hp i hl, mem_reordered σ f⟩

/-! ### Basic and robust regression -/

theorem select_reordered {cr : Crit} {geo : Bool} {b0 : BandwidthWeight} {σ : Equiv.Perm (Fin n)} {c c' : DynMat} (hp : PermCoords n σ c c')
    {lower upper : Option ℝ} {x : Matrix (Fin n) (Fin k) ℝ} {y : Fin n → ℝ} {r : SearchResult}
    (h : gwrSelectBandwidth cr ⟨geo, some (c, c)⟩ b0 lower upper x y = .ok r) :
    gwrSelectBandwidth cr ⟨geo, some (c', c')⟩ b0 lower upper (permRows σ x) (y ∘ σ) = .ok r := by
  have key := fun b => (C51_reordering_selection cr geo b0 c c' σ hp 0 0 x y).1 b
  have hf : (fun (_ : ℕ) b => (true, gwrCriterion cr ⟨geo, some (c', c')⟩ (permRows σ x) (y ∘ σ) b)) =
      fun (_ : ℕ) b => (true, gwrCriterion cr ⟨geo, some (c, c)⟩ x y b) := by
    funext _ b
    exact congrArg (Prod.mk true) (key b)
  unfold gwrSelectBandwidth at h ⊢
  rw [hf]
  cases upper with
  | some v => exact h
  | none =>
    obtain ⟨u, hu, h⟩ := Res.bind_eq_ok'.1 h
    refine Res.bind_eq_ok'.2 ⟨u, ?_, h⟩
    simp only at hu ⊢
    split at hu
    · rename_i ha; rw [if_pos ha]; exact hu
    · rename_i ha; rw [if_neg ha]; exact max_reordered hp hu

theorem filt_reordered (σ : Equiv.Perm (Fin n)) (r : Fin n → ℝ) (m : ℝ) : filtWeight (r ∘ σ) m = filtWeight r m ∘ σ := rfl

theorem mse_reordered (σ : Equiv.Perm (Fin n)) (r : Fin n → ℝ) : mse (r ∘ σ) = mse r := by
  unfold mse
  congr 1
  exact Equiv.sum_comp σ fun i => r i * r i

theorem residuals_reordered {x : Matrix (Fin n) (Fin k) ℝ} {y : Fin n → ℝ} {σ : Equiv.Perm (Fin n)} {u v : FitAcc n k} (h : ReorderedAcc σ u v) :
    residuals (permRows σ x) (y ∘ σ) v.betas = residuals x y u.betas ∘ σ := by
  funext i
  simp only [residuals, Function.comp, perm_fitted σ x u.betas v.betas h.1]

theorem robustLoop_reordered {x : Matrix (Fin n) (Fin k) ℝ} {y : Fin n → ℝ} {σ : Equiv.Perm (Fin n)}
    {F F' : (Fin n → ℝ) → Res (FitAcc n k)} (hF : ∀ mask u, F mask = .ok u → ∃ v, F' (mask ∘ σ) = .ok v ∧ ReorderedAcc σ u v) :
    ∀ (fuel : ℕ) (go : Bool) (u v : FitAcc n k) (m : ℝ) (mask : Fin n → ℝ) (used used' : List (Fin n → ℝ)) (r : FitAcc n k × List (Fin n → ℝ)),
    ReorderedAcc σ u v → robustLoop F x y fuel go u m mask used = .ok r →
    ∃ r', robustLoop F' (permRows σ x) (y ∘ σ) fuel go v m (mask ∘ σ) used' = .ok r' ∧ ReorderedAcc σ r.1 r'.1
  | 0, _, u, v, _, _, used, _, r, hs, h => by rw [robustLoop] at h ⊢; cases Res.ok.inj h; exact ⟨_, rfl, hs⟩
  | fuel + 1, go, u, v, m, mask, used, used', r, hs, h => by
    rw [robustLoop] at h ⊢
    split at h
    · rename_i hg
      rw [if_pos hg]
      obtain ⟨b, hb, h⟩ := Res.bind_eq_ok'.1 h
      obtain ⟨b', hb', hsb⟩ := hF mask b hb
      rw [hb']
      simp only [Res.bind, residuals_reordered hsb, mse_reordered, filt_reordered]
      exact robustLoop_reordered hF fuel _ b b' _ _ _ _ r hsb h
    · rename_i hg
      rw [if_neg hg]
      cases Res.ok.inj h
      exact ⟨_, rfl, hs⟩

theorem robustCali_reordered {filtered : Bool} {sched sched' : (Fin n → ℝ) → Exec n} (hs : ∀ mask, (sched mask).Valid)
    (hs' : ∀ mask, (sched' mask).Valid) {x : Matrix (Fin n) (Fin k) ℝ} {y : Fin n → ℝ} {W : Fin n → Fin n → ℝ} {sS : Bool} (σ : Equiv.Perm (Fin n))
    {r : FitAcc n k × List (Fin n → ℝ)} (h : robustCali filtered sched x y W sS = .ok r) :
    ∃ r', robustCali filtered sched' (permRows σ x) (y ∘ σ) (permW σ W) sS = .ok r' ∧ ReorderedAcc σ r.1 r'.1 := by
  have hF : ∀ mask u, robustFitEx x y W sS mask (sched mask) = .ok u →
      ∃ v, robustFitEx (permRows σ x) (y ∘ σ) (permW σ W) sS (mask ∘ σ) (sched' (mask ∘ σ)) = .ok v ∧ ReorderedAcc σ u v := by
    intro mask u hu
    have e : ∀ (x : Matrix (Fin n) (Fin k) ℝ) (y : Fin n → ℝ) (W : Fin n → Fin n → ℝ) (mask : Fin n → ℝ) (ex : Exec n),
        robustFitEx x y W sS mask ex = gwrCoreEx x y (maskedW W mask) sS false ex := by intro x y W mask ex; cases ex <;> rfl
    rw [e] at hu
    obtain ⟨v, hv, hc⟩ := core_reordered (hs mask) (hs' (mask ∘ σ)) σ hu
    exact ⟨v, by rw [e]; exact hv, hc⟩
  unfold robustCali at h ⊢
  split at h
  · rename_i hf
    rw [if_pos hf]
    unfold caliFirst at h ⊢
    obtain ⟨u, hu, h⟩ := Res.bind_eq_ok'.1 h
    obtain ⟨w, hw, h⟩ := Res.bind_eq_ok'.1 h
    cases Res.ok.inj h
    obtain ⟨u', hu', su⟩ := hF _ u hu
    have hu' : robustFitEx (permRows σ x) (y ∘ σ) (permW σ W) sS (fun _ => 1) (sched' fun _ => 1) = .ok u' := hu'
    have em : outlierMask (permRows σ x) (y ∘ σ) u' = outlierMask x y u ∘ σ := by
      funext i
      simp only [outlierMask, Function.comp]
      rw [residuals_reordered su, perm_rss σ x u.betas u'.betas y su.1, su.2.2.1, su.2.2.2]
      rfl
    obtain ⟨w', hw', sw⟩ := hF _ w hw
    simp only [hu', Res.bind, em, hw']
    exact ⟨_, rfl, sw⟩
  · rename_i hf
    rw [if_neg hf]
    unfold caliSecond at h ⊢
    obtain ⟨u, hu, h⟩ := Res.bind_eq_ok'.1 h
    obtain ⟨u', hu', su⟩ := hF _ u hu
    have hu' : robustFitEx (permRows σ x) (y ∘ σ) (permW σ W) sS (fun _ => 1) (sched' fun _ => 1) = .ok u' := hu'
    simp only [hu', Res.bind, residuals_reordered su, mse_reordered, filt_reordered]
    exact robustLoop_reordered hF 20 _ u u' _ _ _ _ r su h

theorem robustFinish_reordered {filtered : Bool} {sched sched' : (Fin n → ℝ) → Exec n} (hs : ∀ mask, (sched mask).Valid)
    (hs' : ∀ mask, (sched' mask).Valid) {geo : Bool} {b : BandwidthWeight} {σ : Equiv.Perm (Fin n)} {c c' : DynMat} (hp : PermCoords n σ c c')
    {x : Matrix (Fin n) (Fin k) ℝ} {y : Fin n → ℝ} {sS : Bool} {r : RobustResult n k}
    (h : robustFinish filtered sched ⟨geo, some (c, c)⟩ b x y sS = .ok r) :
    ∃ r', robustFinish filtered sched' ⟨geo, some (c', c')⟩ b (permRows σ x) (y ∘ σ) sS = .ok r' ∧ r'.weight = r.weight ∧
      Reordered σ r.betas r'.betas r.diagnostic r'.diagnostic r.se r'.se := by
  unfold robustFinish at h ⊢
  obtain ⟨W, hW, h⟩ := Res.bind_eq_ok'.1 h
  obtain ⟨u, hu, h⟩ := Res.bind_eq_ok'.1 h
  obtain ⟨v, hv, hc⟩ := robustCali_reordered hs hs' σ hu
  cases Res.ok.inj h
  rw [perm_weights hp hW]
  simp only [Res.bind, hv]
  exact ⟨_, rfl, rfl, reordered_of hc⟩

/-- **C140 (basic regression).** Listing the observations in another order, with a given bandwidth in any mode, or with the bandwidth selected by either
criterion and any bounds, also the default ones: the same bandwidths are tried with the same scores, the same one is selected, coefficients and
standard errors move with their observations, and the diagnostics are the same. The search of the original run is serial here; see
`C28_same_fit` for other modes. -/
theorem C140_basic (cr : Crit) (ex ex' : Exec n) (hex : ex.Valid) (hex' : ex'.Valid) (d : CRSDistance) (b : BandwidthWeight) (lower upper : Option ℝ)
    (coords coords' : DynMat) (σ : Equiv.Perm (Fin n)) (hp : PermCoords n σ coords coords') (x : Matrix (Fin n) (Fin k) ℝ) (y : Fin n → ℝ)
    (sS sC : Bool) :
    (∀ g, gwrRun ex d b coords x y sS sC = .ok g →
      ∃ g', gwrRun ex' d b coords' (fun i => x (σ i)) (fun i => y (σ i)) sS sC = .ok g' ∧ g'.weight = g.weight ∧
        Reordered σ g.betas g'.betas g.diagnostic g'.diagnostic g.se g'.se) ∧
    ∀ r g, gwrAutoRun cr (fun _ => .serial) ex d b lower upper coords x y sS sC = .ok (r, g) →
      ∃ g', gwrAutoRun cr (fun _ => .serial) ex' d b lower upper coords' (fun i => x (σ i)) (fun i => y (σ i)) sS sC = .ok (r, g') ∧
        g'.weight = g.weight ∧ Reordered σ g.betas g'.betas g.diagnostic g'.diagnostic g.se g'.se := by
  rw [show (fun i => x (σ i)) = permRows σ x from rfl, show (fun i => y (σ i)) = y ∘ σ from rfl]
  have fin : ∀ (geo : Bool) b g, gwrFinish ex ⟨geo, some (coords, coords)⟩ b x y sS sC = .ok g →
      ∃ g', gwrFinish ex' ⟨geo, some (coords', coords')⟩ b (permRows σ x) (y ∘ σ) sS sC = .ok g' ∧ g'.weight = g.weight ∧
        Reordered σ g.betas g'.betas g.diagnostic g'.diagnostic g.se g'.se := by
    intro geo b g h
    unfold gwrFinish at h ⊢
    obtain ⟨W, hW, h⟩ := Res.bind_eq_ok'.1 h
    obtain ⟨u, hu, h⟩ := Res.bind_eq_ok'.1 h
    obtain ⟨v, hv, hc⟩ := core_reordered hex hex' σ hu
    cases Res.ok.inj h
    have hW' : weightRows ⟨geo, some (coords, coords)⟩ b n n = .ok W := by
      cases ex <;> cases hw : weightRows ⟨geo, some (coords, coords)⟩ b n n <;> rw [hw] at hW <;> simp_all [summaryEscape]
    have hs : summaryEscape ex' (.ok (permW σ W)) = .ok (permW σ W) := by cases ex' <;> rfl
    rw [perm_weights hp hW', hs]
    simp only [Res.bind, hv]
    exact ⟨_, rfl, rfl, reordered_of hc⟩
  constructor
  · intro g h
    unfold gwrRun at h ⊢
    obtain ⟨d', hd, h⟩ := Res.bind_eq_ok'.1 h
    obtain ⟨c1, -, rfl⟩ := bindLocations_eq_ok.1 hd
    rw [bindLocations_eq_ok.2 ⟨hp.2.2.1.trans c1, hp.2.2.1.trans c1, rfl⟩]
    exact fin _ b g h
  · intro r g h
    unfold gwrAutoRun at h ⊢
    obtain ⟨d', hd, h⟩ := Res.bind_eq_ok'.1 h
    obtain ⟨c1, -, rfl⟩ := bindLocations_eq_ok.1 hd
    obtain ⟨r', hr, h⟩ := Res.bind_eq_ok'.1 h
    obtain ⟨b1, hb, h⟩ := Res.bind_eq_ok'.1 h
    obtain ⟨g1, hg, h⟩ := Res.bind_eq_ok'.1 h
    simp only [Res.ok.injEq, Prod.mk.injEq] at h
    obtain ⟨rfl, rfl⟩ := h
    obtain ⟨g', hg', h'⟩ := fin _ b1 g1 hg
    have hr : gwrSelectBandwidth cr ⟨d.mGeographic, some (coords, coords)⟩ b lower upper x y = .ok r' := hr
    have hr' : gwrSearchEx cr (fun _ => .serial) ⟨d.mGeographic, some (coords', coords')⟩ b lower upper (permRows σ x) (y ∘ σ) = .ok r' :=
      select_reordered hp hr
    rw [bindLocations_eq_ok.2 ⟨hp.2.2.1.trans c1, hp.2.2.1.trans c1, rfl⟩]
    simp only [Res.bind, hr', hb, hg']
    exact ⟨_, rfl, h'⟩

/-- **C140 (robust regression).** The same for robust regression by either method, with a given or a selected bandwidth, in any mode. -/
theorem C140_robust (cr : Crit) (filtered : Bool) (sched sched' : (Fin n → ℝ) → Exec n) (hs : ∀ mask, (sched mask).Valid)
    (hs' : ∀ mask, (sched' mask).Valid) (d : CRSDistance) (b : BandwidthWeight) (coords coords' : DynMat) (σ : Equiv.Perm (Fin n))
    (hp : PermCoords n σ coords coords') (x : Matrix (Fin n) (Fin k) ℝ) (y : Fin n → ℝ) (sS : Bool) (r : RobustResult n k) :
    (robustRun filtered sched d b coords x y sS = .ok r →
      ∃ r', robustRun filtered sched' d b coords' (fun i => x (σ i)) (fun i => y (σ i)) sS = .ok r' ∧ r'.weight = r.weight ∧
        Reordered σ r.betas r'.betas r.diagnostic r'.diagnostic r.se r'.se) ∧
    (robustAutoRun cr filtered sched d b coords x y sS = .ok r →
      ∃ r', robustAutoRun cr filtered sched' d b coords' (fun i => x (σ i)) (fun i => y (σ i)) sS = .ok r' ∧ r'.weight = r.weight ∧
        Reordered σ r.betas r'.betas r.diagnostic r'.diagnostic r.se r'.se) := by
  rw [show (fun i => x (σ i)) = permRows σ x from rfl, show (fun i => y (σ i)) = y ∘ σ from rfl]
  constructor
  · intro h
    unfold robustRun at h ⊢
    obtain ⟨d', hd, h⟩ := Res.bind_eq_ok'.1 h
    obtain ⟨c1, -, rfl⟩ := bindLocations_eq_ok.1 hd
    rw [bindLocations_eq_ok.2 ⟨hp.2.2.1.trans c1, hp.2.2.1.trans c1, rfl⟩]
    exact robustFinish_reordered hs hs' hp h
  · intro h
    unfold robustAutoRun at h ⊢
    obtain ⟨d', hd, h⟩ := Res.bind_eq_ok'.1 h
    obtain ⟨c1, -, rfl⟩ := bindLocations_eq_ok.1 hd
    obtain ⟨r', hr, h⟩ := Res.bind_eq_ok'.1 h
    obtain ⟨b1, hb, h⟩ := Res.bind_eq_ok'.1 h
    rw [bindLocations_eq_ok.2 ⟨hp.2.2.1.trans c1, hp.2.2.1.trans c1, rfl⟩]
    simp only [Res.bind, select_reordered hp hr, hb]
    exact robustFinish_reordered hs hs' hp h

/-! ### Space-time regression -/

theorem gtwrBind_ok {d d1 : CRSSTDistance} {coords : DynMat} {times : List ℝ} (h : gtwrBind d coords times = .ok d1) :
    ∃ s t, d.mSpatial = some s ∧ d.mTemporal = some t ∧ coords.nCols = 2 ∧ coords.nRows = times.length ∧
      d1 = { d with mSpatial := some { s with mParameter := some (coords, coords) }, mTemporal := some ⟨some (times, times)⟩,
                    mParameter := some coords.nRows } := by
  by_cases hl : coords.nRows = times.length
  · by_cases h2 : coords.nCols = 2
    · cases hs : d.mSpatial with
      | none => simp [gtwrBind, CRSSTDistance.makeParameter, DistParam.getMat, DistParam.getVec, hs, hl] at h
      | some s =>
        cases ht : d.mTemporal with
        | none => simp [gtwrBind, CRSSTDistance.makeParameter, DistParam.getMat, DistParam.getVec, hs, ht, hl] at h
        | some t => exact ⟨s, t, rfl, rfl, h2, hl, Res.ok.inj (h.symm.trans (gtwrBind_eq hs ht h2 hl))⟩
    · cases hs : d.mSpatial with
      | none => simp [gtwrBind, CRSSTDistance.makeParameter, DistParam.getMat, DistParam.getVec, hs, hl] at h
      | some s =>
        cases ht : d.mTemporal with
        | none => simp [gtwrBind, CRSSTDistance.makeParameter, DistParam.getMat, DistParam.getVec, hs, ht, hl] at h
        | some t => simp [gtwrBind, CRSSTDistance.makeParameter, DistParam.getMat, DistParam.getVec, hs, ht, hl, CRSDistance.makeParameter, h2] at h
  · simp [gtwrBind, CRSSTDistance.makeParameter, DistParam.getMat, DistParam.getVec, hl] at h

theorem spaceTime_reordered {geo : Bool} {σ : Equiv.Perm (Fin n)} {c c' : DynMat} (hp : PermCoords n σ c c') {τ : Fin n → ℝ} {l f : ℝ}
    {dist : Fin n → Fin n → ℝ} (h : IsSpaceTimeDistance geo c τ l f dist) : IsSpaceTimeDistance geo c' (τ ∘ σ) l f fun i j => dist (σ i) (σ j) := by
  obtain ⟨s, hs, hd⟩ := h
  refine ⟨fun i j => s (σ i) (σ j), ?_, fun i j => hd (σ i) (σ j)⟩
  rw [mapDistance_calc] at hs ⊢
  intro i j
  rw [hp.2.2.2, hp.2.2.2]
  exact hs (σ i) (σ j)

/-- The space-time distances of a run whose weights exist. -/
theorem spaceTime_exists {d d1 : CRSSTDistance} {coords : DynMat} {τ : Fin n → ℝ} {b : BandwidthWeight} {W : Fin n → Fin n → ℝ}
    (h : gtwrBind d coords (List.ofFn τ) = .ok d1) (hW : stWeightRows d1 b n n = .ok W) :
    ∃ geo, STConfig geo d ∧ FitsData coords n ∧ ∃ dist, IsSpaceTimeDistance geo coords τ d.mLambda (stFactor d) dist := by
  obtain ⟨s, t, hs, ht, h2, hl, rfl⟩ := gtwrBind_ok h
  have hn : coords.nRows = n := by simpa using hl
  refine ⟨s.mGeographic, ⟨⟨s, hs, rfl⟩, t, ht⟩, ⟨h2, hn⟩, ?_⟩
  have hrow : ∀ i : Fin n, ∃ f : Fin n → ℝ, ∀ j : Fin n, crsCalc s.mGeographic (coords.val i) (coords.val j) = .ok (f j) := by
    intro i
    have hi := Res.tabulate_eq_ok.1 hW i
    unfold stWeightVector at hi
    obtain ⟨l, hl1, -⟩ := Res.bind_eq_ok'.1 hi
    simp only [CRSSTDistance.distance, stDistance] at hl1
    obtain ⟨sd, hsd, -⟩ := Res.bind_eq_ok'.1 hl1
    simp only [CRSDistance.distance, hn, i.isLt, if_true] at hsd
    obtain ⟨f, -, hf⟩ := (crsRow_ok hn).1 hsd
    exact ⟨f, hf⟩
  choose f hf using hrow
  exact ⟨_, f, mapDistance_calc.2 hf, fun i j => rfl⟩

theorem st_reordered {d d1 : CRSSTDistance} {σ : Equiv.Perm (Fin n)} {c c' : DynMat} (hp : PermCoords n σ c c') {τ : Fin n → ℝ}
    {b : BandwidthWeight} {W : Fin n → Fin n → ℝ} (h : gtwrBind d c (List.ofFn τ) = .ok d1) (hW : stWeightRows d1 b n n = .ok W) :
    ∃ d2, gtwrBind d c' (List.ofFn (τ ∘ σ)) = .ok d2 ∧ stWeightRows d2 b n n = .ok (permW σ W) := by
  obtain ⟨geo, hd, hc, dist, hdist⟩ := spaceTime_exists h hW
  obtain ⟨d1', h1, e1⟩ := st_distance_any hd hc hdist
  cases Res.ok.inj (h.symm.trans h1)
  obtain ⟨d2, h2, e2⟩ := st_distance_any hd ⟨hp.2.2.1.trans hc.1, hp.2.1⟩ (spaceTime_reordered hp hdist)
  refine ⟨d2, h2, Res.tabulate_eq_ok.2 fun i => ?_⟩
  have hi := Res.tabulate_eq_ok.1 hW (σ i)
  unfold stWeightVector at hi ⊢
  rw [e1] at hi
  rw [e2]
  simp only [Res.bind, rowToVec_ofFn] at hi ⊢
  exact C05_weight_equivariant b (dist (σ i)) _ σ hi

theorem lambda_mono {R R' : ℕ → ℝ → Res (Bool × Option ℝ)} (hR : ∀ j l v, R j l = .ok v → R' j l = .ok v) {r : ℝ × LambdaState}
    (h : lambdaAutoSelection R = .ok r) : lambdaAutoSelection R' = .ok r := by
  have hstep : ∀ s t, lambdaStep R s = .ok t → lambdaStep R' s = .ok t := by
    intro s t hs
    unfold lambdaStep at hs ⊢
    dsimp only at hs ⊢
    split at hs
    · rename_i hg
      obtain ⟨v, hv, hs⟩ := Res.bind_eq_ok'.1 hs
      rw [if_pos hg, hR _ _ _ hv]; exact hs
    · rename_i hg
      obtain ⟨v, hv, hs⟩ := Res.bind_eq_ok'.1 hs
      rw [if_neg hg, hR _ _ _ hv]; exact hs
  have hloop : ∀ fuel s t, lambdaLoop R fuel s = .ok t → lambdaLoop R' fuel s = .ok t := by
    intro fuel
    induction fuel with
    | zero => intro s t hs; exact hs
    | succ fuel ih =>
      intro s t hs
      rw [lambdaLoop] at hs ⊢
      split at hs
      · rename_i hg
        obtain ⟨v, hv, hs⟩ := Res.bind_eq_ok'.1 hs
        rw [if_pos hg, hstep _ _ hv]; exact ih _ _ hs
      · rename_i hg; rw [if_neg hg]; exact hs
  unfold lambdaAutoSelection at h ⊢
  obtain ⟨s0, h0, h⟩ := Res.bind_eq_ok'.1 h
  obtain ⟨s, h1, h⟩ := Res.bind_eq_ok'.1 h
  have h0' : lambdaInit R' = .ok s0 := by
    unfold lambdaInit at h0 ⊢
    dsimp only at h0 ⊢
    obtain ⟨a, ha, h0⟩ := Res.bind_eq_ok'.1 h0
    obtain ⟨b, hb, h0⟩ := Res.bind_eq_ok'.1 h0
    obtain ⟨p, hp, h0⟩ := Res.bind_eq_ok'.1 h0
    obtain ⟨q, hq, h0⟩ := Res.bind_eq_ok'.1 h0
    simp only [hR _ _ _ ha, hR _ _ _ hb, hR _ _ _ hp, hR _ _ _ hq, Res.bind]
    exact h0
  rw [h0']
  simp only [Res.bind, hloop _ _ _ h1]
  exact h

theorem rsquare_reordered {d : CRSSTDistance} {b : BandwidthWeight} {σ : Equiv.Perm (Fin n)} {c c' : DynMat} (hp : PermCoords n σ c c') {τ : Fin n → ℝ}
    {x : Matrix (Fin n) (Fin k) ℝ} {y : Fin n → ℝ} {l : ℝ} {v : Bool × Option ℝ} (h : rsquareByLambda d b c (List.ofFn τ) x y NoStop l = .ok v) :
    rsquareByLambda d b c' (List.ofFn (τ ∘ σ)) (permRows σ x) (y ∘ σ) NoStop l = .ok v := by
  unfold rsquareByLambda at h ⊢
  revert h
  generalize d.setLambda l = p
  obtain ⟨d0, u⟩ := p
  cases u with
  | ok _ =>
    intro h
    dsimp only at h ⊢
    obtain ⟨d1, h1, h⟩ := Res.bind_eq_ok'.1 h
    obtain ⟨W, hW, h⟩ := Res.bind_eq_ok'.1 h
    obtain ⟨⟨B, t⟩, hB, h⟩ := Res.bind_eq_ok'.1 h
    obtain ⟨d2, h2, hW'⟩ := st_reordered hp h1 hW
    have ht : t = false := serialFor_nostop _ _ _ hB
    subst ht
    have hb := (betaLoop_ok (List.nodup_finRange n) hB).1
    have hr : ∀ i ∈ List.finRange n, localBeta (permRows σ x) (y ∘ σ) (permW σ W i) = .ok (B (σ i)) := fun i _ => by
      unfold permW
      rw [perm_localBeta]
      exact hb (σ i) (List.mem_finRange _)
    have e : predictSerial (permRows σ x) (y ∘ σ) (permW σ W) NoStop = _ := serialFor_ok (fun i => B (σ i)) _ 0 _ (fun _ _ => rfl) hr
    obtain ⟨B', e'⟩ : ∃ B', predictSerial (permRows σ x) (y ∘ σ) (permW σ W) NoStop = .ok (B', false) := ⟨_, e⟩
    have hb' := (betaLoop_ok (List.nodup_finRange n) e').1
    have hBB : ∀ i, B' i = B (σ i) := fun i => Res.ok.inj ((hb' i (List.mem_finRange i)).symm.trans (hr i (List.mem_finRange i)))
    have hm : meanVec (y ∘ σ) = meanVec y := by
      unfold meanVec
      congr 1
      exact Equiv.sum_comp σ y
    have hy : ∑ i, ((y ∘ σ) i - meanVec (y ∘ σ)) * ((y ∘ σ) i - meanVec (y ∘ σ)) = ∑ i, (y i - meanVec y) * (y i - meanVec y) := by
      rw [hm]
      exact Equiv.sum_comp σ (fun i => (y i - meanVec y) * (y i - meanVec y))
    rw [h2]
    simp only [Res.bind, hW', e', perm_rss σ x B B' y hBB, hy]
    exact h
  | _ => intro h; cases h

/-- Whether the radius of an adaptive bandwidth exists depends on the bandwidth and the number of observations only. -/
theorem radius_kind {bw : ℝ} {v v' : Fin n → ℝ} {r : ℝ} (h : adaptiveRadius bw v = .ok r) : ∃ r', adaptiveRadius bw v' = .ok r' := by
  unfold adaptiveRadius at h ⊢
  dsimp only at h ⊢
  split at h
  · rename_i hc
    rw [if_pos hc]
    obtain ⟨i, hi, h⟩ := Res.bind_eq_ok'.1 h
    obtain ⟨i1, hi1, h⟩ := Res.bind_eq_ok'.1 h
    obtain ⟨d0, h0, h⟩ := Res.bind_eq_ok'.1 h
    obtain ⟨d1, h1, h⟩ := Res.bind_eq_ok'.1 h
    have key : ∀ (j : ℤ) (q : ℝ), elemAt (sortVec v) j = .ok q → ∃ q', elemAt (sortVec v') j = .ok q' := by
      intro j q hq
      unfold elemAt at hq ⊢
      split at hq
      · rename_i hj
        have e : (sortVec v).length = (sortVec v').length := by simp [sortVec]
        rw [dif_pos (e ▸ hj)]
        exact ⟨_, rfl⟩
      · cases hq
    obtain ⟨q0, g0⟩ := key _ _ h0
    obtain ⟨q1, g1⟩ := key _ _ h1
    exact ⟨_, Res.bind_eq_ok'.2 ⟨i, hi, Res.bind_eq_ok'.2 ⟨i1, hi1, Res.bind_eq_ok'.2 ⟨q0, g0, Res.bind_eq_ok'.2 ⟨q1, g1, rfl⟩⟩⟩⟩⟩
  · rename_i hc
    rw [if_neg hc]
    obtain ⟨m, hm, h⟩ := Res.bind_eq_ok'.1 h
    have : ∃ m', vecMax v' = .ok m' := by
      unfold vecMax at hm ⊢
      cases n with
      | zero => simp at hm
      | succ n => rw [List.ofFn_succ]; exact ⟨_, rfl⟩
    obtain ⟨m', hm'⟩ := this
    exact ⟨_, Res.bind_eq_ok'.2 ⟨m', hm', rfl⟩⟩

theorem radius_finite (bw : ℝ) (v : Fin n → ℝ) : adaptiveRadius bw v ≠ .nonfinite := by
  have ke : ∀ (l : List ℝ) (j : ℤ), elemAt l j ≠ .nonfinite := fun l j => by unfold elemAt; split <;> simp
  intro h
  unfold adaptiveRadius at h
  dsimp only at h
  split at h
  · cases h1 : toInt32 ⌊bw⌋ with
    | nonfinite => unfold toInt32 at h1; split at h1 <;> cases h1
    | ok i =>
      simp only [h1, bind, Res.bind] at h
      cases h2 : predInt32 i with
      | nonfinite => unfold predInt32 at h2; split at h2 <;> cases h2
      | ok j =>
        simp only [h2] at h
        cases h3 : elemAt (sortVec v) j with
        | nonfinite => exact ke _ _ h3
        | ok q =>
          simp only [h3] at h
          cases h4 : elemAt (sortVec v) i with
          | nonfinite => exact ke _ _ h4
          | _ => simp [h4, pure] at h
        | _ => simp [h3] at h
      | _ => simp [h2] at h
    | _ => simp [h1, bind, Res.bind] at h
  · cases h1 : vecMax v with
    | nonfinite => unfold vecMax at h1; split at h1 <;> cases h1
    | _ => simp [h1, bind, Res.bind, pure] at h

/-- A loop whose rounds only fail by a value that is not finite. -/
theorem tabulate_kind {α : Type} : ∀ {n : ℕ} {f : Fin n → Res α}, (∀ i, (∃ v, f i = .ok v) ∨ f i = .nonfinite) →
    (∃ v, Res.tabulate n f = .ok v) ∨ Res.tabulate n f = .nonfinite
  | 0, _, _ => .inl ⟨_, rfl⟩
  | n + 1, f, h => by
    rw [Res.tabulate]
    rcases h 0 with ⟨v, hv⟩ | hv
    · rw [hv]
      rcases tabulate_kind (f := fun i : Fin n => f i.succ) fun i => h i.succ with ⟨w, hw⟩ | hw
      · simp only [Res.bind, hw]; exact .inl ⟨_, rfl⟩
      · simp only [Res.bind, hw]; exact .inr trivial
    · rw [hv]; exact .inr rfl

theorem tabulate_nonfinite {α : Type} : ∀ {n : ℕ} {f : Fin n → Res α}, Res.tabulate n f = .nonfinite → ∃ i, f i = .nonfinite
  | 0, _, h => by cases h
  | n + 1, f, h => by
    rw [Res.tabulate] at h
    cases h0 : f 0 with
    | nonfinite => exact ⟨0, h0⟩
    | ok v =>
      rw [h0] at h
      cases h1 : Res.tabulate n (fun i : Fin n => f i.succ) with
      | nonfinite =>
        obtain ⟨i, hi⟩ := tabulate_nonfinite h1
        exact ⟨i.succ, hi⟩
      | _ => simp [Res.bind, h1] at h
    | _ => rw [h0] at h; cases h

theorem kernelVec_kind (ker : KernelType) (v : Fin n → ℝ) (bw : ℝ) : (∃ w, kernelVec ker v bw = .ok w) ∨ kernelVec ker v bw = .nonfinite := by
  refine tabulate_kind fun i => ?_
  cases ker <;> simp only [kernelAt, gaussianKernel, exponentialKernel, bisquareKernel, tricubeKernel, boxcarKernel]
  · by_cases h : bw = 0 <;> by_cases h' : v i = 0 <;> simp [h, h']
  · by_cases h : bw = 0 <;> by_cases h' : 0 < v i <;> simp [h, h']
  · by_cases h : bw = 0 <;> simp [h]
  · by_cases h : bw = 0 <;> simp [h]
  · simp

/-- If weights fail at one place only by not being finite, they do so everywhere. -/
theorem weight_kind {b : BandwidthWeight} {v v' : Fin n → ℝ} (h : b.weight v = .nonfinite) : (∃ w, b.weight v' = .ok w) ∨ b.weight v' = .nonfinite := by
  unfold BandwidthWeight.weight at h ⊢
  split at h
  · rename_i ha
    rw [if_pos ha]
    have h : (adaptiveRadius b.mBandwidth v).bind (fun r => kernelVec b.mKernel v r) = .nonfinite := h
    show (∃ w, (adaptiveRadius b.mBandwidth v').bind (fun r => kernelVec b.mKernel v' r) = .ok w) ∨
      (adaptiveRadius b.mBandwidth v').bind (fun r => kernelVec b.mKernel v' r) = .nonfinite
    cases hr : adaptiveRadius b.mBandwidth v with
    | ok r =>
      obtain ⟨r', hr'⟩ := radius_kind (v' := v') hr
      rw [hr']
      exact kernelVec_kind _ _ _
    | nonfinite => exact absurd hr (radius_finite _ _)
    | _ => rw [hr] at h; cases h
  · rename_i ha
    rw [if_neg ha]
    exact kernelVec_kind _ _ _

theorem gtwrCriterion_reordered {cr : Crit} {geo : Bool} {d d1 d2 : CRSSTDistance} (hd : STConfig geo d) {σ : Equiv.Perm (Fin n)} {c c' : DynMat}
    (hc : FitsData c n) (hp : PermCoords n σ c c') {τ : Fin n → ℝ} {dist : Fin n → Fin n → ℝ}
    (hdist : IsSpaceTimeDistance geo c τ d.mLambda (stFactor d) dist) (h1 : gtwrBind d c (List.ofFn τ) = .ok d1)
    (h2 : gtwrBind d c' (List.ofFn (τ ∘ σ)) = .ok d2) {x : Matrix (Fin n) (Fin k) ℝ} {y : Fin n → ℝ} {b : BandwidthWeight} {v : ℝ}
    (h : gtwrCriterion cr d1 x y b = .ok v) : gtwrCriterion cr d2 (permRows σ x) (y ∘ σ) b = .ok v := by
  obtain ⟨d1', g1, e1⟩ := st_distance_any hd hc hdist
  cases Res.ok.inj (h1.symm.trans g1)
  obtain ⟨d2', g2, e2⟩ := st_distance_any hd ⟨hp.2.2.1.trans hc.1, hp.2.1⟩ (spaceTime_reordered hp hdist)
  cases Res.ok.inj (h2.symm.trans g2)
  have r1 : ∀ i : Fin n, stWeightVector d1 b n i = b.weight (dist i) := fun i => by
    unfold stWeightVector; rw [e1]; simp only [Res.bind, rowToVec_ofFn]
  have r2 : ∀ i : Fin n, stWeightVector d2 b n i = b.weight (fun j => dist (σ i) (σ j)) := fun i => by
    unfold stWeightVector; rw [e2]; simp only [Res.bind, rowToVec_ofFn]
  unfold gtwrCriterion at h ⊢
  cases hW : stWeightRows d1 b n n with
  | ok W =>
    obtain ⟨d3, h3, h4⟩ := st_reordered hp h1 hW
    cases Res.ok.inj (h2.symm.trans h3)
    rw [hW] at h
    rw [h4]
    have := perm_critValue σ cr x y W
    cases cr <;> simp only [critValue] at this <;> simp only [this] <;> exact h
  | nonfinite =>
    rw [hW] at h
    have hk : stWeightRows d2 b n n = .nonfinite := by
      obtain ⟨i, hi⟩ := tabulate_nonfinite hW
      rw [r1] at hi
      rcases tabulate_kind (f := fun i : Fin n => stWeightVector d2 b n i) fun j => by rw [r2]; exact weight_kind hi with ⟨W', hW'⟩ | hk
      · exfalso
        have hj := Res.tabulate_eq_ok.1 hW' (σ.symm i)
        rw [r2] at hj
        have := C05_weight_equivariant b _ _ σ.symm hj
        have e : (fun j => dist (σ (σ.symm i)) (σ j)) ∘ σ.symm = dist i := by funext j; simp
        rw [e, hi] at this
        cases this
      · exact hk
    rw [hk]
    exact h
  | _ => rw [hW] at h; cases h

theorem gtwrSelect_reordered {cr : Crit} {geo : Bool} {d d1 d2 : CRSSTDistance} (hd : STConfig geo d) {σ : Equiv.Perm (Fin n)} {c c' : DynMat}
    (hc : FitsData c n) (hp : PermCoords n σ c c') {τ : Fin n → ℝ} {dist : Fin n → Fin n → ℝ}
    (hdist : IsSpaceTimeDistance geo c τ d.mLambda (stFactor d) dist) (h1 : gtwrBind d c (List.ofFn τ) = .ok d1)
    (h2 : gtwrBind d c' (List.ofFn (τ ∘ σ)) = .ok d2) {x : Matrix (Fin n) (Fin k) ℝ} {y : Fin n → ℝ} {b0 : BandwidthWeight} {r : SearchResult}
    (h : gtwrSelectBandwidth cr d1 b0 x y = .ok r) : gtwrSelectBandwidth cr d2 b0 (permRows σ x) (y ∘ σ) = .ok r := by
  unfold gtwrSelectBandwidth at h ⊢
  obtain ⟨lu, hlu, h⟩ := Res.bind_eq_ok'.1 h
  have hlu' : gtwrBounds d2 b0 n = .ok lu := by
    unfold gtwrBounds at hlu ⊢
    split at hlu
    · rename_i ha; rw [if_pos ha]; exact hlu
    · rename_i ha
      rw [if_neg ha]
      obtain ⟨M, hM, hlu⟩ := Res.bind_eq_ok'.1 hlu
      refine Res.bind_eq_ok'.2 ⟨M, ?_, hlu⟩
      obtain ⟨d1', g1, e1⟩ := st_distance_any hd hc hdist
      cases Res.ok.inj (h1.symm.trans g1)
      obtain ⟨d2', g2, e2⟩ := st_distance_any hd ⟨hp.2.2.1.trans hc.1, hp.2.1⟩ (spaceTime_reordered hp hdist)
      cases Res.ok.inj (h2.symm.trans g2)
      obtain ⟨_, _, _, _, _, _, f1⟩ := gtwrBind_ok h1
      obtain ⟨_, _, _, _, _, _, f2⟩ := gtwrBind_ok h2
      have p1 : d1.mParameter = some n := by rw [f1]; exact congrArg some hp.1
      have p2 : d2.mParameter = some n := by rw [f2]; exact congrArg some hp.2.1
      simp only [CRSSTDistance.maxDistance, p1, p2] at hM ⊢
      refine maxLoop_reordered (σ := σ) (fun i l hl => ?_) hM
      rw [e1] at hl
      cases Res.ok.inj hl
      exact ⟨_, e2 i, mem_reordered σ (dist (σ i))⟩
  rw [hlu']
  simp only [Res.bind] at h ⊢
  split at h
  · rename_i hall
    cases Res.ok.inj h
    have e : optimize b0 lu.1 lu.2 (fun _ b => (true, gtwrScore cr d2 (permRows σ x) (y ∘ σ) b)) [] =
        optimize b0 lu.1 lu.2 (fun _ b => (true, gtwrScore cr d1 x y b)) [] := by
      refine optimize_same (P := fun b => ∃ v, gtwrCriterion cr d1 x y b = .ok v) (fun j w hw => ?_) hall
      obtain ⟨v, hv⟩ := hw
      simp only [gtwrScore, hv, gtwrCriterion_reordered hd hc hp hdist h1 h2 hv]
    rw [e, if_pos fun q hq => (hall q hq).imp fun v hv => gtwrCriterion_reordered hd hc hp hdist h1 h2 hv]
  · cases h

theorem gtwrFinish_reordered {autoLambda : Bool} {ex ex' : Exec n} (hex : ex.Valid) (hex' : ex'.Valid) {d : CRSSTDistance} {b : BandwidthWeight}
    {c c' : DynMat} {σ : Equiv.Perm (Fin n)} (hp : PermCoords n σ c c') {τ : Fin n → ℝ} {x : Matrix (Fin n) (Fin k) ℝ} {y : Fin n → ℝ} {sS : Bool}
    {l : ℝ} {g : GWRReport n k} (h : gtwrFinishLambda autoLambda ex d b c (List.ofFn τ) x y sS = .ok (l, g)) :
    (∃ d1 d2 W, d1.mSpatial = d.mSpatial ∧ gtwrBind d1 c (List.ofFn τ) = .ok d2 ∧ stWeightRows d2 b n n = .ok W) ∧
    ∃ g', gtwrFinishLambda autoLambda ex' d b c' (List.ofFn (τ ∘ σ)) (permRows σ x) (y ∘ σ) sS = .ok (l, g') ∧ g'.weight = g.weight ∧
      Reordered σ g.betas g'.betas g.diagnostic g'.diagnostic g.se g'.se := by
  unfold gtwrFinishLambda at h ⊢
  obtain ⟨l', hl, h⟩ := Res.bind_eq_ok'.1 h
  have hl' : gtwrLambda autoLambda d b c' (List.ofFn (τ ∘ σ)) (permRows σ x) (y ∘ σ) = .ok l' := by
    unfold gtwrLambda at hl ⊢
    split at hl
    · rename_i ha
      rw [if_pos ha]
      obtain ⟨r, hr, hl⟩ := Res.bind_eq_ok'.1 hl
      rw [lambda_mono (fun j l v hv => rsquare_reordered hp hv) hr]
      exact hl
    · rename_i ha; rw [if_neg ha]; exact hl
  rw [hl']
  simp only [Res.bind] at h ⊢
  have hsp : (if autoLambda = true then d.setLambda l' else (d, .ok ())).1.mSpatial = d.mSpatial := by
    split
    · unfold CRSSTDistance.setLambda; split <;> rfl
    · rfl
  revert h hsp
  generalize (if autoLambda = true then d.setLambda l' else (d, .ok ())) = p
  obtain ⟨d1, r⟩ := p
  cases r with
  | ok _ =>
    intro h hsp
    cases h2 : gtwrBind d1 c (List.ofFn τ) with
    | ok d2 =>
      simp only [h2] at h
      cases h3 : gtwrFinish ex d2 b x y sS with
      | ok g1 =>
        simp only [h3, Res.ok.injEq, Prod.mk.injEq] at h
        obtain ⟨rfl, rfl⟩ := h
        unfold gtwrFinish at h3 ⊢
        obtain ⟨W, hW, h3⟩ := Res.bind_eq_ok'.1 h3
        have hW' : stWeightRows d2 b n n = .ok W := by
          cases ex <;> cases hw : stWeightRows d2 b n n <;> rw [hw] at hW <;> simp_all [summaryEscape]
        obtain ⟨u, hu, h3⟩ := Res.bind_eq_ok'.1 h3
        obtain ⟨v, hv, hcv⟩ := core_reordered hex hex' σ hu
        obtain ⟨d3, h4, h5⟩ := st_reordered hp h2 hW'
        cases Res.ok.inj h3
        have hs : summaryEscape ex' (.ok (permW σ W)) = .ok (permW σ W) := by cases ex' <;> rfl
        refine ⟨⟨d1, d2, W, hsp, h2, hW'⟩, ?_⟩
        simp only [h4, h5, hs, Res.bind, hv]
        exact ⟨_, rfl, rfl, reordered_of hcv⟩
      | _ => simp [h3] at h
    | _ => simp [h2] at h
  | _ => intro h; simp at h

/-- **C140 (space-time regression).** With bandwidth and λ given or selected, in any mode: the same bandwidth and λ are used and the results are
reordered. -/
theorem C140_spacetime (crit : Option Crit) (autoLambda : Bool) (ex ex' : Exec n) (hex : ex.Valid) (hex' : ex'.Valid) (d : CRSSTDistance)
    (b : BandwidthWeight) (coords coords' : DynMat) (σ : Equiv.Perm (Fin n)) (hp : PermCoords n σ coords coords') (τ : Fin n → ℝ)
    (x : Matrix (Fin n) (Fin k) ℝ) (y : Fin n → ℝ) (sS : Bool) (l : ℝ) (g : GWRReport n k)
    (h : gtwrRunEx crit autoLambda ex d b coords (List.ofFn τ) x y sS = .ok (l, g)) :
    ∃ g', gtwrRunEx crit autoLambda ex' d b coords' (List.ofFn fun i => τ (σ i)) (fun i => x (σ i)) (fun i => y (σ i)) sS = .ok (l, g') ∧
      g'.weight = g.weight ∧ Reordered σ g.betas g'.betas g.diagnostic g'.diagnostic g.se g'.se := by
  rw [show (fun i => x (σ i)) = permRows σ x from rfl, show (fun i => y (σ i)) = y ∘ σ from rfl, show (fun i => τ (σ i)) = τ ∘ σ from rfl]
  unfold gtwrRunEx at h ⊢
  obtain ⟨d', hd', h⟩ := Res.bind_eq_ok'.1 h
  obtain ⟨b1, hb, h⟩ := Res.bind_eq_ok'.1 h
  obtain ⟨s, t, hs, ht, h2, hl, -⟩ := gtwrBind_ok hd'
  have hd2 := gtwrBind_eq hs ht (hp.2.2.1.trans h2) (times := List.ofFn (τ ∘ σ)) (by rw [hp.2.1, List.length_ofFn])
  obtain ⟨⟨d1, d3, W, e1, h3, hW⟩, g', hg', hr⟩ := gtwrFinish_reordered hex hex' hp h
  obtain ⟨geo, hc1, hfit, dist, sd, hsd, -⟩ := spaceTime_exists h3 hW
  have hcfg : STConfig geo d := ⟨by rw [← e1]; exact hc1.spatial, t, ht⟩
  rw [hd2]
  refine ⟨g', ?_, hr⟩
  simp only [Res.bind]
  cases crit with
  | none => cases Res.ok.inj hb; exact hg'
  | some cr =>
    obtain ⟨r, hr1, hout⟩ := Res.bind_eq_ok'.1 hb
    have := gtwrSelect_reordered hcfg hfit hp (dist := _) ⟨sd, hsd, fun i j => rfl⟩ hd' hd2 hr1
    simp only [this, hout]
    exact hg'

/-! ### Density regression -/

theorem gwdrWeights_reordered {bws : Fin d → BandwidthWeight} {coords : Matrix (Fin n) (Fin d) ℝ} (σ : Equiv.Perm (Fin n)) {w : Fin d → Fin n → Fin n → ℝ}
    (hw : ∀ m i, (bws m).weight (fun l => |coords l m - coords i m|) = .ok (w m i)) :
    gwdrWeights bws (fun i => coords (σ i)) = .ok fun i => List.ofFn fun m => w m (σ i) ∘ σ :=
  gwdrWeights_ok.2 ⟨fun m i => w m (σ i) ∘ σ, fun m i => C05_weight_equivariant (bws m) (fun l => |coords l m - coords (σ i) m|) _ σ (hw m (σ i)), rfl⟩

theorem prod_reordered (σ : Equiv.Perm (Fin n)) (w : Fin d → Fin n → Fin n → ℝ) :
    (fun i l => ((List.ofFn fun m => w m (σ i) ∘ σ).map fun w => w l).prod) = permW σ fun i l => ((List.ofFn fun m => w m i).map fun w => w l).prod := by
  funext i l
  simp only [permW, Function.comp, List.map_ofFn]
  rfl

theorem looTerm_reordered (σ : Equiv.Perm (Fin n)) (x : Matrix (Fin n) (Fin k) ℝ) (y : Fin n → ℝ) (W : Fin n → Fin n → ℝ) (i : Fin n) :
    looTerm (permRows σ x) (y ∘ σ) (permW σ W) i = looTerm x y W (σ i) := by
  unfold looTerm
  rw [permW_cv, perm_xtwx, perm_xtwy]
  rfl

/-- The bandwidth from which the search starts does not depend on the order. -/
theorem start_reordered (b : BandwidthWeight) (σ : Equiv.Perm (Fin n)) (c : Fin n → ℝ) : gwdrStart k b (fun i => c (σ i)) = gwdrStart k b c := by
  by_cases ha : b.mAdaptive = true
  · unfold gwdrStart; simp only [ha, if_true]
  · have ha : b.mAdaptive = false := by simpa using ha
    rcases Nat.eq_zero_or_pos n with rfl | hn
    · congr 1; funext i; exact i.elim0
    · obtain ⟨D, hD, e⟩ := C113_start k b ha c hn
      obtain ⟨D', hD', e'⟩ := C113_start k b ha (fun i => c (σ i)) hn
      have : (Set.range fun p : Fin n × Fin n => |c (σ p.1) - c (σ p.2)|) = Set.range fun p : Fin n × Fin n => |c p.1 - c p.2| := by
        ext v
        constructor
        · rintro ⟨p, rfl⟩; exact ⟨(σ p.1, σ p.2), rfl⟩
        · rintro ⟨p, rfl⟩; exact ⟨(σ.symm p.1, σ.symm p.2), by simp⟩
      rw [this] at hD'
      rw [e, e', hD.unique hD']

/-- **C140 (density regression, criteria).** The two criteria that the bandwidth search minimises have the same value for the reordered data. -/
theorem C140_density_criteria (bws : Fin d → BandwidthWeight) (coords : Matrix (Fin n) (Fin d) ℝ) (σ : Equiv.Perm (Fin n)) (x : Matrix (Fin n) (Fin k) ℝ)
    (y : Fin n → ℝ) (D : Fin n → List (Fin n → ℝ)) (h : gwdrWeights bws coords = .ok D) :
    ∃ D', gwdrWeights bws (fun i => coords (σ i)) = .ok D' ∧
      gwdrCVSerial (fun i => x (σ i)) (fun i => y (σ i)) D' NoStop = gwdrCVSerial x y D NoStop ∧
      gwdrAICSerial (fun i => x (σ i)) (fun i => y (σ i)) D' NoStop = gwdrAICSerial x y D NoStop := by
  rw [show (fun i => x (σ i)) = permRows σ x from rfl, show (fun i => y (σ i)) = y ∘ σ from rfl]
  obtain ⟨w, hw, rfl⟩ := gwdrWeights_ok.1 h
  have h0 : ∀ m i l, 0 ≤ w m i l := fun m i l => weight_nonneg _ _ _ (fun _ => abs_nonneg _) (hw m i) l
  have hD : ∀ i, ∀ u ∈ (fun i => List.ofFn fun m => w m i : Fin n → List (Fin n → ℝ)) i, ∀ l, 0 ≤ u l := by
    intro i u hu l; obtain ⟨m, rfl⟩ := List.mem_ofFn.1 hu; exact h0 m i l
  have hD' : ∀ i, ∀ u ∈ (fun i => List.ofFn fun m => w m (σ i) ∘ σ : Fin n → List (Fin n → ℝ)) i, ∀ l, 0 ≤ u l := by
    intro i u hu l; obtain ⟨m, rfl⟩ := List.mem_ofFn.1 hu; exact h0 m (σ i) (σ l)
  have hdw : (fun i => dimWeight (List.ofFn fun m => w m (σ i) ∘ σ)) = permW σ fun i => dimWeight (List.ofFn fun m => w m i) := by
    have := prod_reordered σ w
    funext i l
    have := congrFun (congrFun this i) l
    simp only [permW, dimWeight_prod, Function.comp] at this ⊢
    exact this
  refine ⟨_, gwdrWeights_reordered σ hw, ?_, ?_⟩
  · have hl : ∀ i, looTerm (permRows σ x) (y ∘ σ) (fun i => dimWeight (List.ofFn fun m => w m (σ i) ∘ σ)) i =
        looTerm x y (fun i => dimWeight (List.ofFn fun m => w m i)) (σ i) := fun i => by rw [hdw, looTerm_reordered]
    have hc : ∀ i, (∃ r, looTerm x y (fun i => dimWeight (List.ofFn fun m => w m i)) i = .ok r) ∨
        looTerm x y (fun i => dimWeight (List.ofFn fun m => w m i)) i = .throw .singular := fun i => by
      rcases looTerm_eq x y (fun i => dimWeight (List.ofFn fun m => w m i)) (fun i l => dimWeight_nonneg (hD i) l) i with ⟨b, -, h, -⟩ | ⟨h, -⟩
      · exact .inl ⟨_, h⟩
      · exact .inr h
    unfold gwdrCVSerial
    by_cases hall : ∀ i, ∃ r, looTerm x y (fun i => dimWeight (List.ofFn fun m => w m i)) i = .ok r
    · choose r hr using hall
      rw [serialFor_ok (g := looTerm x y fun i => dimWeight (List.ofFn fun m => w m i)) (upd := fun _ c cv => cv + c) (stop := NoStop) r
          (List.finRange n) 0 (0 : ℝ) (fun _ _ => rfl) (fun i _ => hr i),
        serialFor_ok (g := looTerm (permRows σ x) (y ∘ σ) fun i => dimWeight (List.ofFn fun m => w m (σ i) ∘ σ)) (upd := fun _ c cv => cv + c)
          (stop := NoStop) (fun i => r (σ i)) (List.finRange n) 0 (0 : ℝ) (fun _ _ => rfl) (fun i _ => (hl i).trans (hr _))]
      simp only
      congr 1
      rw [foldl_add, foldl_add, zero_add, zero_add, ← List.ofFn_eq_map, ← List.ofFn_eq_map, List.sum_ofFn, List.sum_ofFn]
      exact Equiv.sum_comp σ r
    · push Not at hall
      obtain ⟨i, hi⟩ := hall
      have hf := (hc i).resolve_left fun ⟨r, hr⟩ => hi r hr
      rw [serialFor_fail (upd := fun _ c cv => cv + c) (stop := NoStop) hc (List.finRange n) 0 (0 : ℝ) (fun _ _ => rfl) ⟨i, List.mem_finRange i, hf⟩,
        serialFor_fail (upd := fun _ c cv => cv + c) (stop := NoStop) (fun i => by rw [hl]; exact hc _) (List.finRange n) 0 (0 : ℝ) (fun _ _ => rfl)
          ⟨σ.symm i, List.mem_finRange _, by rw [hl, Equiv.apply_symm_apply]; exact hf⟩]
  · rw [(C54_aic (T := 1) x y _ hD _ (seqEvents_schedule (fun _ => (0 : Fin 1)) _)).1,
      (C54_aic (T := 1) (permRows σ x) (y ∘ σ) _ hD' _ (seqEvents_schedule (fun _ => (0 : Fin 1)) _)).1]
    have := perm_critValue σ .AIC x y fun i l => ((List.ofFn fun m => w m i).map fun w => w l).prod
    rw [← prod_reordered] at this
    exact this

/-- **C140 (density regression).** With given bandwidths, and with bandwidths selected by the minimiser: if the serial run completes, so does the run on the
reordered data in any mode, and its results are reordered. In the second part both runs are given the same answers `gsl` of the external minimiser; by
`C140_density_criteria` it minimises the same function from the same starting point. -/
theorem C140_density (gsl : (Fin d → ℝ) → SimplexTrace d) (eps : ℝ) (maxIter : ℕ) (ex : Exec n) (hex : ex.Valid) (bws : Fin d → BandwidthWeight)
    (coords : Matrix (Fin n) (Fin d) ℝ) (σ : Equiv.Perm (Fin n)) (x : Matrix (Fin n) (Fin k) ℝ) (y : Fin n → ℝ) (sS : Bool) (r : GWDRResult n k d) :
    (gwdrRun .serial bws coords x y sS = .ok r →
      ∃ r', gwdrRun ex bws (fun i => coords (σ i)) (fun i => x (σ i)) (fun i => y (σ i)) sS = .ok r' ∧ r'.weights = r.weights ∧
        Reordered σ r.betas r'.betas r.diagnostic r'.diagnostic r.se r'.se) ∧
    (gwdrAutoRun gsl eps maxIter .serial bws coords x y sS = .ok r →
      ∃ r', gwdrAutoRun gsl eps maxIter ex bws (fun i => coords (σ i)) (fun i => x (σ i)) (fun i => y (σ i)) sS = .ok r' ∧ r'.weights = r.weights ∧
        Reordered σ r.betas r'.betas r.diagnostic r'.diagnostic r.se r'.se) := by
  rw [show (fun i => x (σ i)) = permRows σ x from rfl, show (fun i => y (σ i)) = y ∘ σ from rfl]
  have key : ∀ bws, gwdrFinish .serial bws coords x y sS = .ok r → ∃ r', gwdrFinish ex bws (fun i => coords (σ i)) (permRows σ x) (y ∘ σ) sS = .ok r' ∧
      r'.weights = r.weights ∧ Reordered σ r.betas r'.betas r.diagnostic r'.diagnostic r.se r'.se := by
    intro bws h
    suffices hser : ∃ r', gwdrFinish .serial bws (fun i => coords (σ i)) (permRows σ x) (y ∘ σ) sS = .ok r' ∧
        r'.weights = r.weights ∧ Reordered σ r.betas r'.betas r.diagnostic r'.diagnostic r.se r'.se by
      obtain ⟨r', h1, h2⟩ := hser
      exact ⟨r', gwdrFinish_same h1 hex, h2⟩
    unfold gwdrFinish at h ⊢
    obtain ⟨D, hD, h⟩ := Res.bind_eq_ok'.1 h
    obtain ⟨u, hu, h⟩ := Res.bind_eq_ok'.1 h
    cases Res.ok.inj h
    obtain ⟨w, hw, rfl⟩ := gwdrWeights_ok.1 (gwdrEscape_ok.1 hD)
    have hD' := gwdrWeights_reordered σ hw
    have e : ∀ (x : Matrix (Fin n) (Fin k) ℝ) (y : Fin n → ℝ) (w : Fin d → Fin n → Fin n → ℝ), (∀ m i l, 0 ≤ w m i l) →
        gwdrFitEx x y (fun i => List.ofFn fun m => w m i) sS .serial =
          gwrCoreEx x y (fun i l => ((List.ofFn fun m => w m i).map fun w => w l).prod) sS false .serial := by
      intro x y w h0
      show (gwdrFitSerial x y (fun i => List.ofFn fun m => w m i) sS NoStop).bind (fun p => Res.ok p.1) = _
      rw [C54_fit_is_gwr x y _ fun i u hu l => by obtain ⟨m, rfl⟩ := List.mem_ofFn.1 hu; exact h0 m i l]
      rfl
    have h0 : ∀ m i l, 0 ≤ w m i l := fun m i l => weight_nonneg _ _ _ (fun _ => abs_nonneg _) (hw m i) l
    rw [e x y w h0] at hu
    obtain ⟨v, hv, hc⟩ := core_reordered (ex := .serial) (ex' := .serial) trivial trivial σ hu
    rw [gwdrEscape_ok.2 hD']
    have e2 := e (permRows σ x) (y ∘ σ) (fun m i => w m (σ i) ∘ σ) fun m i l => h0 m (σ i) (σ l)
    rw [prod_reordered] at e2
    simp only [Res.bind, e2, hv]
    exact ⟨_, rfl, rfl, reordered_of hc⟩
  refine ⟨key bws, fun h => ?_⟩
  unfold gwdrAutoRun at h ⊢
  obtain ⟨b, hb, h⟩ := Res.bind_eq_ok'.1 h
  have hb' : gwdrBandwidths gsl eps maxIter bws (fun i => coords (σ i)) k = .ok b := by
    unfold gwdrBandwidths at hb ⊢
    have e : (fun m => gwdrStart k (bws m) fun l => coords (σ l) m) = fun m => gwdrStart k (bws m) fun l => coords l m :=
      funext fun m => start_reordered (bws m) σ fun l => coords l m
    rw [e]
    exact hb
  rw [hb']
  exact key b h

/-! ### Concrete cases -/

/-- The same locations listed in the order `σ`. -/
def reorderedCoords (σ : Equiv.Perm (Fin n)) (c : DynMat) : DynMat := ⟨n, c.nCols, fun i => if h : i < n then c.val (σ ⟨i, h⟩) else c.val i⟩

theorem reorderedCoords_perm (σ : Equiv.Perm (Fin n)) {c : DynMat} (hc : c.nRows = n) : PermCoords n σ c (reorderedCoords σ c) :=
  ⟨hc, rfl, rfl, fun i => by simp [reorderedCoords]⟩

/-- C140, basic: three places listed backwards, bandwidth selected, the second run multithreaded. -/
example : ∃ r g g', gwrAutoRun .CV (fun _ => .serial) .serial ⟨false, none⟩ ⟨1, false, .Gaussian⟩ (some 1) (some 5) (lineCoords 1) exX (exX *ᵥ ![2, 3])
      true true = .ok (r, g) ∧
    gwrAutoRun .CV (fun _ => .serial) (moreThreads 3) ⟨false, none⟩ ⟨1, false, .Gaussian⟩ (some 1) (some 5)
      (reorderedCoords (Equiv.swap (0 : Fin 3) 2) (lineCoords 1)) (fun i => exX (Equiv.swap 0 2 i)) (fun i => (exX *ᵥ ![2, 3]) (Equiv.swap 0 2 i)) true true =
      .ok (r, g') ∧
    Reordered (Equiv.swap (0 : Fin 3) 2) g.betas g'.betas g.diagnostic g'.diagnostic g.se g'.se := by
  obtain ⟨r, g, h, -⟩ := ex_autoRun (D := 1) (some 1) (some 5) rfl rfl (by norm_num) (by norm_num) (fun _ => .serial) (fun _ => trivial) .serial trivial
    ![2, 3] true true
  obtain ⟨g', h', -, hr⟩ := (C140_basic .CV .serial (moreThreads 3) trivial moreThreads_valid _ _ _ _ _ _ (Equiv.swap 0 2)
    (reorderedCoords_perm (n := 3) _ rfl) _ _ true true).2 r g h
  exact ⟨r, g, g', h, h', hr⟩

/-- C140, robust: eleven places with an outlier at the fourth, which the second run lists first. -/
example (filtered : Bool) : ∃ r r', robustRun filtered (fun _ => .serial) (CRSDistance.new false) ⟨(11 : ℕ), false, .Boxcar⟩ (linePoints 11) (ones 11)
      (Pi.single 3 1) true = .ok r ∧
    robustRun filtered (fun _ => moreThreads 11) (CRSDistance.new false) ⟨(11 : ℕ), false, .Boxcar⟩
      (reorderedCoords (Equiv.swap (0 : Fin 11) 3) (linePoints 11)) (fun i => ones 11 (Equiv.swap (0 : Fin 11) 3 i))
      (fun i => (Pi.single 3 1 : Fin 11 → ℝ) (Equiv.swap 0 3 i)) true = .ok r' ∧
    Reordered (Equiv.swap 0 3) r.betas r'.betas r.diagnostic r'.diagnostic r.se r'.se := by
  obtain ⟨r, -, h, -⟩ := C111_predict_at_data_fails (n := 11) le_rfl 3 filtered true
  obtain ⟨r', h', -, hr⟩ := (C140_robust .CV filtered (fun _ => .serial) (fun _ => moreThreads 11) (fun _ => trivial) (fun _ => moreThreads_valid) _ _ _ _
    (Equiv.swap 0 3) (reorderedCoords_perm (n := 11) _ rfl) _ _ _ r).1 h
  exact ⟨r, r', h, h', hr⟩

/-- C140, space-time: three places and times listed backwards, bandwidth and λ selected. -/
example : ∃ l g g', gtwrRunEx (some .CV) true .serial (exST (1 / 2)) ⟨1, false, .Gaussian⟩ (lineCoords 1) (List.ofFn ![0, 1, 2]) exX (exX *ᵥ ![2, 3]) true =
      .ok (l, g) ∧
    gtwrRunEx (some .CV) true (moreThreads 3) (exST (1 / 2)) ⟨1, false, .Gaussian⟩ (reorderedCoords (Equiv.swap (0 : Fin 3) 2) (lineCoords 1))
      (List.ofFn fun i : Fin 3 => (![0, 1, 2] : Fin 3 → ℝ) (Equiv.swap 0 2 i)) (fun i => exX (Equiv.swap 0 2 i))
      (fun i => (exX *ᵥ ![2, 3]) (Equiv.swap 0 2 i)) true = .ok (l, g') ∧
    Reordered (Equiv.swap (0 : Fin 3) 2) g.betas g'.betas g.diagnostic g'.diagnostic g.se g'.se := by
  obtain ⟨l, g, h, -⟩ := ex_gtwrRun .serial trivial true
  obtain ⟨g', h', -, hr⟩ := C140_spacetime (some .CV) true .serial (moreThreads 3) trivial moreThreads_valid _ _ _ _ (Equiv.swap 0 2)
    (reorderedCoords_perm (n := 3) _ rfl) _ _ _ _ l g h
  exact ⟨l, g, g', h, h', hr⟩

/-- C140, density: two dimensions, five observations, bandwidths from the minimiser; the criteria at bandwidths 2 and 3. -/
example (coords : Matrix (Fin 5) (Fin 2) ℝ) (y : Fin 5 → ℝ) :
    (∃ r r', gwdrAutoRun tameGsl 1 1 .serial ![⟨2, false, .Gaussian⟩, ⟨3, false, .Boxcar⟩] coords (ones 5) y true = .ok r ∧
      gwdrAutoRun tameGsl 1 1 (moreThreads 5) ![⟨2, false, .Gaussian⟩, ⟨3, false, .Boxcar⟩] (fun i => coords (Equiv.swap 0 4 i))
        (fun i => ones 5 (Equiv.swap 0 4 i)) (fun i => y (Equiv.swap 0 4 i)) true = .ok r' ∧
      Reordered (Equiv.swap (0 : Fin 5) 4) r.betas r'.betas r.diagnostic r'.diagnostic r.se r'.se) ∧
    ∃ D D', gwdrWeights ![⟨2, false, .Gaussian⟩, ⟨3, false, .Boxcar⟩] coords = .ok D ∧
      gwdrWeights ![⟨2, false, .Gaussian⟩, ⟨3, false, .Boxcar⟩] (fun i => coords (Equiv.swap 0 4 i)) = .ok D' ∧
      gwdrCVSerial (fun i => ones 5 (Equiv.swap 0 4 i)) (fun i => y (Equiv.swap 0 4 i)) D' NoStop = gwdrCVSerial (ones 5) y D NoStop := by
  refine ⟨?_, ?_⟩
  · obtain ⟨r, h⟩ := ex_auto (by decide) ![⟨2, false, .Gaussian⟩, ⟨3, false, .Boxcar⟩] (fun m => by fin_cases m <;> rfl) coords y
    obtain ⟨r', h', -, hf⟩ := (C140_density _ _ _ _ moreThreads_valid _ _ (Equiv.swap 0 4) _ _ _ r).2 h
    exact ⟨r, r', h, h', hf⟩
  · obtain ⟨r, h⟩ := ones_axis_success ![⟨2, false, .Gaussian⟩, ⟨3, false, .Boxcar⟩] coords y true fun m => by fin_cases m <;> exact ⟨by norm_num, rfl⟩
    obtain ⟨D, hD, -⟩ := Res.bind_eq_ok'.1 h
    have hD := gwdrEscape_ok.1 hD
    obtain ⟨D', h', e, -⟩ := C140_density_criteria _ coords (Equiv.swap 0 4) (ones 5) y D hD
    exact ⟨D, D', hD, h', e⟩

end Verif.Props

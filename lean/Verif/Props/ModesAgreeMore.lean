import Verif.Props.ModesAgree
import Verif.Props.GTWRRunGeneral
import Verif.Props.RobustRunGeneral
import Verif.Props.RidgeRunGeneral
import Verif.Props.GGWRRunGeneral
import Verif.Props.GWDRRun

/-! # C138: serial and multithreaded runs of the other regressions report the same -/

namespace Verif.Props
open Verif Verif.Model Verif.Spec Matrix Classical

variable {n k d : ℕ}

/-! ### Space-time regression -/

theorem gtwrFinish_same {x : Matrix (Fin n) (Fin k) ℝ} {y : Fin n → ℝ} {ex ex' : Exec n} (hex : ex.Valid) (hex' : ex'.Valid) {d' : CRSSTDistance}
    {b : BandwidthWeight} {sS : Bool} {g : GWRReport n k} (h : gtwrFinish ex d' b x y sS = .ok g) :
    ∃ g', gtwrFinish ex' d' b x y sS = .ok g' ∧ SameReport sS false g g' := by
  unfold gtwrFinish at h ⊢
  obtain ⟨W, hW, h⟩ := Res.bind_eq_ok'.1 h
  have hW' : stWeightRows d' b n n = .ok W := by
    cases ex <;> cases hw : stWeightRows d' b n n <;> rw [hw] at hW <;> simp_all [summaryEscape]
  obtain ⟨a, ha, h⟩ := Res.bind_eq_ok'.1 h
  cases Res.ok.inj h
  obtain ⟨a0, h0, e1, e2, e3, e4, e5, e6⟩ := core_serial_of hex ha
  obtain ⟨a', ha', f1, f2, f3, f4, f5, f6⟩ := core_of_serial hex' h0
  have hs : summaryEscape ex' (.ok W) = .ok W := by cases ex' <;> rfl
  rw [hW', hs]
  simp only [Res.bind, ha']
  have g1 := f1.trans e1.symm
  have g2 := f2.trans e2.symm
  have g3 := f3.trans e3.symm
  refine ⟨_, rfl, rfl, g1, by simp only [g1, g3], ?_, g3, f4.trans e4.symm, fun t => (f5 t).trans (e5 t).symm, fun t => (f6 t).trans (e6 t).symm⟩
  simp only
  unfold betasSE
  rw [g1, g2, g3]

/-- **C138 (space-time regression).** If a run completes in one mode, with or without selection of the bandwidth and of λ, it completes in every other
mode and under every schedule, with the same λ, bandwidth, coefficients, standard errors and diagnostics, and the same hat rows if they are kept. -/
theorem C138_spacetime (crit : Option Crit) (autoLambda : Bool) (ex ex' : Exec n) (hex : ex.Valid) (hex' : ex'.Valid) (d : CRSSTDistance)
    (b0 : BandwidthWeight) (coords : DynMat) (times : List ℝ) (x : Matrix (Fin n) (Fin k) ℝ) (y : Fin n → ℝ) (sS : Bool) (l : ℝ) (g : GWRReport n k)
    (h : gtwrRunEx crit autoLambda ex d b0 coords times x y sS = .ok (l, g)) :
    ∃ g', gtwrRunEx crit autoLambda ex' d b0 coords times x y sS = .ok (l, g') ∧ SameReport sS false g g' := by
  unfold gtwrRunEx at h ⊢
  obtain ⟨d', hd', h⟩ := Res.bind_eq_ok'.1 h
  obtain ⟨b, hb, h⟩ := Res.bind_eq_ok'.1 h
  rw [hd']
  simp only [Res.bind] at hb ⊢
  rw [hb]
  dsimp only
  unfold gtwrFinishLambda at h ⊢
  obtain ⟨l', hl, h⟩ := Res.bind_eq_ok'.1 h
  rw [hl]
  simp only [Res.bind] at h ⊢
  revert h
  generalize (if autoLambda = true then d.setLambda l' else (d, .ok ())) = p
  obtain ⟨d1, r⟩ := p
  cases r with
  | ok _ =>
    intro h
    cases h2 : gtwrBind d1 coords times with
    | ok d2 =>
      simp only [h2] at h ⊢
      cases h3 : gtwrFinish ex d2 b x y sS with
      | ok g1 =>
        simp only [h3, Res.ok.injEq, Prod.mk.injEq] at h
        obtain ⟨rfl, rfl⟩ := h
        obtain ⟨g', hg', hsame⟩ := gtwrFinish_same hex hex' h3
        exact ⟨g', by simp only [hg'], hsame⟩
      | _ => simp [h3] at h
    | _ => simp [h2] at h
  | _ => intro h; simp at h

/-! ### Robust regression -/

/-- The same sums, up to hat rows that were not asked for. -/
def SameAcc (a b : FitAcc n k) : Prop := b.betas = a.betas ∧ b.se = a.se ∧ b.shat = a.shat ∧ b.qdiag = a.qdiag

theorem robustFitEx_same {x : Matrix (Fin n) (Fin k) ℝ} {y : Fin n → ℝ} {W : Fin n → Fin n → ℝ} {sS : Bool} {mask : Fin n → ℝ} {ex ex' : Exec n}
    (hex : ex.Valid) (hex' : ex'.Valid) {a : FitAcc n k} (h : robustFitEx x y W sS mask ex = .ok a) :
    ∃ a', robustFitEx x y W sS mask ex' = .ok a' ∧ SameAcc a a' := by
  have e : ∀ ex : Exec n, robustFitEx x y W sS mask ex = gwrCoreEx x y (maskedW W mask) sS false ex := by intro ex; cases ex <;> rfl
  rw [e] at h
  obtain ⟨a0, h0, e1, e2, e3, e4, -⟩ := core_serial_of hex h
  obtain ⟨a', ha', f1, f2, f3, f4, -⟩ := core_of_serial hex' h0
  exact ⟨a', by rw [e, ha'], f1.trans e1.symm, f2.trans e2.symm, f3.trans e3.symm, f4.trans e4.symm⟩

theorem robustLoop_same {F F' : (Fin n → ℝ) → Res (FitAcc n k)} (hF : ∀ mask a, F mask = .ok a → ∃ a', F' mask = .ok a' ∧ SameAcc a a')
    {x : Matrix (Fin n) (Fin k) ℝ} {y : Fin n → ℝ} : ∀ (fuel : ℕ) (go : Bool) (a a' : FitAcc n k) (m : ℝ) (mask : Fin n → ℝ)
    (used : List (Fin n → ℝ)) (r : FitAcc n k × List (Fin n → ℝ)), SameAcc a a' → robustLoop F x y fuel go a m mask used = .ok r →
    ∃ r', robustLoop F' x y fuel go a' m mask used = .ok r' ∧ SameAcc r.1 r'.1 ∧ r'.2 = r.2
  | 0, _, a, a', _, _, used, r, hs, h => by rw [robustLoop] at h ⊢; cases Res.ok.inj h; exact ⟨_, rfl, hs, rfl⟩
  | fuel + 1, go, a, a', m, mask, used, r, hs, h => by
    rw [robustLoop] at h ⊢
    split at h
    · rename_i hg
      rw [if_pos hg]
      obtain ⟨b, hb, h⟩ := Res.bind_eq_ok'.1 h
      obtain ⟨b', hb', hsb⟩ := hF mask b hb
      rw [hb']
      simp only [Res.bind, hsb.1]
      exact robustLoop_same hF fuel _ b b' _ _ _ r hsb h
    · rename_i hg
      rw [if_neg hg]
      cases Res.ok.inj h
      exact ⟨_, rfl, hs, rfl⟩

theorem robustCali_same {filtered : Bool} {sched sched' : (Fin n → ℝ) → Exec n} (hs : ∀ mask, (sched mask).Valid) (hs' : ∀ mask, (sched' mask).Valid)
    {x : Matrix (Fin n) (Fin k) ℝ} {y : Fin n → ℝ} {W : Fin n → Fin n → ℝ} {sS : Bool} {r : FitAcc n k × List (Fin n → ℝ)}
    (h : robustCali filtered sched x y W sS = .ok r) : ∃ r', robustCali filtered sched' x y W sS = .ok r' ∧ SameAcc r.1 r'.1 ∧ r'.2 = r.2 := by
  have hF : ∀ mask a, robustFitEx x y W sS mask (sched mask) = .ok a → ∃ a', robustFitEx x y W sS mask (sched' mask) = .ok a' ∧ SameAcc a a' :=
    fun mask a ha => robustFitEx_same (hs mask) (hs' mask) ha
  unfold robustCali at h ⊢
  split at h
  · rename_i hf
    rw [if_pos hf]
    unfold caliFirst at h ⊢
    obtain ⟨a, ha, h⟩ := Res.bind_eq_ok'.1 h
    obtain ⟨b, hb, h⟩ := Res.bind_eq_ok'.1 h
    cases Res.ok.inj h
    obtain ⟨a', ha', sa⟩ := hF _ a ha
    have em : outlierMask x y a' = outlierMask x y a := by
      unfold outlierMask
      rw [sa.1, sa.2.2.1, sa.2.2.2]
    obtain ⟨b', hb', sb⟩ := hF _ b hb
    simp only [ha', Res.bind, em, hb']
    exact ⟨_, rfl, sb, rfl⟩
  · rename_i hf
    rw [if_neg hf]
    unfold caliSecond at h ⊢
    obtain ⟨a, ha, h⟩ := Res.bind_eq_ok'.1 h
    obtain ⟨a', ha', sa⟩ := hF _ a ha
    simp only [ha', Res.bind, sa.1]
    exact robustLoop_same hF 20 _ a a' _ _ _ r sa h

theorem robustFinish_same {filtered : Bool} {sched sched' : (Fin n → ℝ) → Exec n} (hs : ∀ mask, (sched mask).Valid)
    (hs' : ∀ mask, (sched' mask).Valid) {d' : CRSDistance} {b : BandwidthWeight} {x : Matrix (Fin n) (Fin k) ℝ} {y : Fin n → ℝ} {sS : Bool}
    {r : RobustResult n k} (h : robustFinish filtered sched d' b x y sS = .ok r) : robustFinish filtered sched' d' b x y sS = .ok r := by
  unfold robustFinish at h ⊢
  obtain ⟨W, hW, h⟩ := Res.bind_eq_ok'.1 h
  obtain ⟨a, ha, h⟩ := Res.bind_eq_ok'.1 h
  obtain ⟨a', ha', ⟨e1, e2, e3, -⟩, -⟩ := robustCali_same hs hs' ha
  rw [hW, ← h]
  simp only [Res.bind, ha', e1, e3]
  congr 2
  funext i j
  unfold betasSE
  rw [e1, e2, e3]

/-- **C138 (robust regression).** Both calibration methods, with a given or a selected bandwidth: if the run completes in one mode, it completes in every
other mode and under all schedules of its fits with the same bandwidth, coefficients, standard errors and diagnostics. -/
theorem C138_robust (c : Crit) (filtered : Bool) (sched sched' : (Fin n → ℝ) → Exec n) (hs : ∀ mask, (sched mask).Valid)
    (hs' : ∀ mask, (sched' mask).Valid) (d : CRSDistance) (b : BandwidthWeight) (coords : DynMat) (x : Matrix (Fin n) (Fin k) ℝ) (y : Fin n → ℝ)
    (sS : Bool) (r : RobustResult n k) :
    (robustRun filtered sched d b coords x y sS = .ok r → robustRun filtered sched' d b coords x y sS = .ok r) ∧
    (robustAutoRun c filtered sched d b coords x y sS = .ok r → robustAutoRun c filtered sched' d b coords x y sS = .ok r) := by
  constructor <;> intro h
  · unfold robustRun at h ⊢
    obtain ⟨d', hd, h⟩ := Res.bind_eq_ok'.1 h
    rw [hd]
    exact robustFinish_same hs hs' h
  · unfold robustAutoRun at h ⊢
    obtain ⟨d', hd, h⟩ := Res.bind_eq_ok'.1 h
    obtain ⟨r', hr, h⟩ := Res.bind_eq_ok'.1 h
    obtain ⟨b', hb, h⟩ := Res.bind_eq_ok'.1 h
    rw [hd]
    simp only [Res.bind, hr, hb]
    exact robustFinish_same hs hs' h

/-! ### Generalised regression -/

theorem noThreads {evs : List (OmpEv (Fin n) (Fin 0))} (hn : 0 < n) (h : (Exec.omp evs).Valid) : False := by
  have hm : (⟨0, hn⟩ : Fin n) ∈ (finishes evs).map Prod.snd := (Schedule.finishes h).mem_iff.2 (List.mem_finRange _)
  obtain ⟨⟨t, -⟩, -, -⟩ := List.mem_map.1 hm
  exact t.elim0

theorem ggwrCV_iff {F : Family} {tol : ℝ} {m : ℕ} {d' : CRSDistance} {x : Matrix (Fin n) (Fin k) ℝ} {y : Fin n → ℝ} {b : BandwidthWeight} {ex : Exec n}
    (hn : 0 < n) (hex : ex.Valid) {v : ℝ} :
    ggwrCriterionEx F tol m .CV d' x y b ex = .ok v ↔ ggwrCriterion F tol m .CV d' x y b = .ok v := by
  match ex, hex with
  | .serial, _ => exact Iff.rfl
  | .omp (T := 0) evs, hex => exact (noThreads hn hex).elim
  | .omp (T := T + 1) evs, hex =>
    show (weightRows d' b n n).bind (fun W => ggwrCVOmp F tol m x y W evs) = .ok v ↔ (weightRows d' b n n).bind (fun W => ggwrCVSerial F tol m x y W) = .ok v
    rw [Res.bind_eq_ok', Res.bind_eq_ok']
    exact ⟨fun ⟨W, hW, h⟩ => ⟨W, hW, cv_of_omp hex h⟩, fun ⟨W, hW, h⟩ => ⟨W, hW, C90_parallel_cv F tol m x y W evs hex v h⟩⟩

theorem ggwrScore_same {F : Family} {tol : ℝ} {m : ℕ} {d' : CRSDistance} {x : Matrix (Fin n) (Fin k) ℝ} {y : Fin n → ℝ} {b : BandwidthWeight}
    {ex : Exec n} (hn : 0 < n) (hex : ex.Valid) : ggwrScoreEx F tol m .CV d' x y b ex = ggwrScore F tol m .CV d' x y b := by
  unfold ggwrScoreEx ggwrScore
  have h := fun v => ggwrCV_iff (F := F) (tol := tol) (m := m) (d' := d') (x := x) (y := y) (b := b) hn hex (v := v)
  cases h1 : ggwrCriterionEx F tol m .CV d' x y b ex with
  | ok v => rw [(h v).1 h1]
  | _ =>
    cases h2 : ggwrCriterion F tol m .CV d' x y b with
    | ok v => rw [(h v).2 h2] at h1; cases h1
    | _ => rfl

theorem ggwrSelect_same {F : Family} {tol : ℝ} {m : ℕ} {d' : CRSDistance} {b0 : BandwidthWeight} {x : Matrix (Fin n) (Fin k) ℝ} {y : Fin n → ℝ}
    {sched : ℕ → Exec n} (hn : 0 < n) (hs : ∀ j, (sched j).Valid) :
    ggwrSelectBandwidthEx F tol m .CV d' b0 x y sched = ggwrSelectBandwidth F tol m .CV d' b0 x y := by
  unfold ggwrSelectBandwidthEx ggwrSelectBandwidth
  have e : (fun (j : ℕ) (b : BandwidthWeight) => (true, ggwrScoreEx F tol m .CV d' x y b (sched j))) =
      fun _ b => (true, ggwrScore F tol m .CV d' x y b) := by
    funext j b
    rw [ggwrScore_same hn (hs j)]
  rw [e]
  congr 1
  funext u
  dsimp only
  refine if_congr ?_ rfl rfl
  constructor
  · intro h e he
    obtain ⟨j, hj⟩ := List.mem_iff_getElem?.1 he
    obtain ⟨v, hv⟩ := h j e hj
    exact ⟨v, (ggwrCV_iff hn (hs j)).1 hv⟩
  · intro h j e he
    obtain ⟨v, hv⟩ := h e (List.mem_of_getElem? he)
    exact ⟨v, (ggwrCV_iff hn (hs j)).2 hv⟩

/-- **C138 (generalised regression).** With the cross-validation criterion, a fit with automatic bandwidth selection does in every mode and under all
schedules what the serial one does: the same bandwidth and report, or no result in either. -/
theorem C138_generalised_partial (F : Family) (tol : ℝ) (m : ℕ) (hn : 0 < n) (d : CRSDistance) (b0 : BandwidthWeight) (coords : DynMat)
    (x : Matrix (Fin n) (Fin k) ℝ) (y : Fin n → ℝ) (sched : ℕ → Exec n) (hs : ∀ j, (sched j).Valid) (ex : Exec n) (hex : ex.Valid) :
    ggwrAutoRunEx F tol m .CV d b0 coords x y sched ex = ggwrAutoRun F tol m .CV d b0 coords x y := by
  have hfit : ∀ W : Fin n → Fin n → ℝ, ggwrFit F tol m x y W ex = ggwrFit F tol m x y W .serial := by
    intro W
    cases ex with
    | serial => rfl
    | omp evs => exact C90_parallel_fit F tol m x y W evs hex
  unfold ggwrAutoRunEx ggwrAutoRun
  congr 1
  funext d'
  rw [ggwrSelect_same hn hs]
  simp only [hfit]

/-! ### Density regression -/

theorem gwdrFinish_same {bws : Fin d → BandwidthWeight} {coords : Matrix (Fin n) (Fin d) ℝ} {x : Matrix (Fin n) (Fin k) ℝ} {y : Fin n → ℝ} {sS : Bool}
    {r : GWDRResult n k d} (h : gwdrFinish .serial bws coords x y sS = .ok r) {ex : Exec n} (hex : ex.Valid) :
    gwdrFinish ex bws coords x y sS = .ok r := by
  cases ex with
  | serial => exact h
  | omp evs =>
    unfold gwdrFinish at h ⊢
    obtain ⟨D, hD, h⟩ := Res.bind_eq_ok'.1 h
    rw [gwdrEscape_ok] at hD
    obtain ⟨a, ha, h⟩ := Res.bind_eq_ok'.1 h
    rw [gwdrEscape_ok.2 hD]
    obtain ⟨w, hw, rfl⟩ := gwdrWeights_ok.1 hD
    have hD0 : ∀ i, ∀ u ∈ (fun i => List.ofFn fun m => w m i : Fin n → List (Fin n → ℝ)) i, ∀ l, 0 ≤ u l := by
      intro i u hu l
      obtain ⟨m, rfl⟩ := List.mem_ofFn.1 hu
      exact weight_nonneg _ _ _ (fun _ => abs_nonneg _) (hw m i) l
    unfold gwdrFitEx at ha
    obtain ⟨⟨a1, t⟩, h1, h2⟩ := Res.bind_eq_ok'.1 ha
    cases Res.ok.inj h2
    rw [C54_fit_is_gwr x y _ hD0] at h1
    have ht : t = false := serialFor_nostop _ _ _ h1
    subst ht
    have hsch : Schedule (workRange n 0 n) evs := by rw [workRange_all]; exact hex
    have hW : ∀ i l, 0 ≤ (((fun i => List.ofFn fun m => w m i : Fin n → List (Fin n → ℝ)) i).map fun w => w l).prod := fun i l =>
      List.prod_nonneg fun v hv => by
        obtain ⟨u, hu, rfl⟩ := List.mem_map.1 hv
        exact hD0 i u hu l
    have hdet := (C21_fit_succeeds_iff x y _ hW sS false).1.1 ⟨_, h1⟩
    obtain ⟨a', ha', e1, e2, e3, -⟩ := (C27_fit_parallel_eq_serial x y _ 0 n sS false evs hsch).1 _ h1
    have hfit : gwdrFitEx x y (fun i => List.ofFn fun m => w m i) sS (.omp evs) = .ok a' := by
      show (gwdrFitOmp x y (fun i => List.ofFn fun m => w m i) sS NoStop evs).bind (fun p => Res.ok p.1) = _
      rw [gwdrOmp_eq hD0 hdet sS hsch, ha']
      rfl
    simp only [Res.bind, hfit]
    rw [← h]
    simp only [e1, e3]
    congr 2
    funext i j
    unfold betasSE
    rw [e1, e2, e3]

/-- **C138 (density regression).** If the serial run completes, with given bandwidths or with those found by the minimiser, every multithreaded run
completes with the same bandwidths, coefficients, standard errors and diagnostics. (The converse fails: `C112_parallel_fails`.) -/
theorem C138_density (gsl : (Fin d → ℝ) → SimplexTrace d) (eps : ℝ) (maxIter : ℕ) (ex : Exec n) (hex : ex.Valid) (bws : Fin d → BandwidthWeight)
    (coords : Matrix (Fin n) (Fin d) ℝ) (x : Matrix (Fin n) (Fin k) ℝ) (y : Fin n → ℝ) (sS : Bool) (r : GWDRResult n k d) :
    (gwdrRun .serial bws coords x y sS = .ok r → gwdrRun ex bws coords x y sS = .ok r) ∧
    (gwdrAutoRun gsl eps maxIter .serial bws coords x y sS = .ok r → gwdrAutoRun gsl eps maxIter ex bws coords x y sS = .ok r) := by
  refine ⟨fun h => gwdrFinish_same h hex, fun h => ?_⟩
  unfold gwdrAutoRun at h ⊢
  obtain ⟨b, hb, h⟩ := Res.bind_eq_ok'.1 h
  rw [hb]
  exact gwdrFinish_same h hex

/-! ### Concrete cases -/

/-- Two threads: the first takes the first place, the second all others. -/
def moreThreads (n : ℕ) : Exec n := .omp (seqEvents (fun i : Fin n => if i.val = 0 then (0 : Fin 2) else 1) (List.finRange n))

theorem moreThreads_valid : (moreThreads n).Valid := seqEvents_schedule _ _

/-- C138, space-time: three places and times, bandwidth and λ both selected; serial, then two threads. -/
example (sS : Bool) : ∃ l g g', gtwrRunEx (some .CV) true .serial (exST (1 / 2)) ⟨1, false, .Gaussian⟩ (lineCoords 1) (List.ofFn ![0, 1, 2]) exX
      (exX *ᵥ ![2, 3]) sS = .ok (l, g) ∧ gtwrRunEx (some .CV) true (moreThreads 3) (exST (1 / 2)) ⟨1, false, .Gaussian⟩ (lineCoords 1)
      (List.ofFn ![0, 1, 2]) exX (exX *ᵥ ![2, 3]) sS = .ok (l, g') ∧ SameReport sS false g g' := by
  obtain ⟨l, g, h, -⟩ := ex_gtwrRun .serial trivial sS
  obtain ⟨g', h', hs⟩ := C138_spacetime _ _ .serial (moreThreads 3) trivial moreThreads_valid _ _ _ _ _ _ _ l g h
  exact ⟨l, g, g', h, h', hs⟩

/-- C138, robust: three places on a line, selected bandwidth; serial, then two threads in each fit. -/
example : ∃ r, robustAutoRun .CV true (fun _ => .serial) ⟨false, none⟩ ⟨1, false, .Gaussian⟩ (lineCoords 1) exX (exX *ᵥ ![2, 3]) true = .ok r ∧
    robustAutoRun .CV true (fun _ => moreThreads 3) ⟨false, none⟩ ⟨1, false, .Gaussian⟩ (lineCoords 1) exX (exX *ᵥ ![2, 3]) true = .ok r := by
  obtain ⟨r, h⟩ := ex_robustAuto
  exact ⟨r, h, (C138_robust .CV true (fun _ => .serial) (fun _ => moreThreads 3) (fun _ => trivial) (fun _ => moreThreads_valid) _ _ _ _ _ _ r).2 h⟩

/-- C138, generalised: counts at four places, selected bandwidth; the serial run completes, and so does one with two threads. -/
example (tol : ℝ) : ∃ b r, ggwrAutoRun .Poisson tol 1 .CV ⟨false, none⟩ ⟨1, false, .Boxcar⟩ twinCoords (ones 4) twinY = .ok (b, r) ∧
    ggwrAutoRunEx .Poisson tol 1 .CV ⟨false, none⟩ ⟨1, false, .Boxcar⟩ twinCoords (ones 4) twinY (fun _ => moreThreads 4) (moreThreads 4) = .ok (b, r) := by
  obtain ⟨b, r, h⟩ := ex_ggwrAuto tol (fun _ => .serial) (fun _ => trivial) (fun _ _ h => by cases h) .serial trivial
  have e := C138_generalised_partial .Poisson tol 1 (by decide) ⟨false, none⟩ ⟨1, false, .Boxcar⟩ twinCoords (ones 4) twinY (fun _ => .serial)
    (fun _ => trivial) .serial trivial
  have e' := C138_generalised_partial .Poisson tol 1 (by decide) ⟨false, none⟩ ⟨1, false, .Boxcar⟩ twinCoords (ones 4) twinY (fun _ => moreThreads 4)
    (fun _ => moreThreads_valid) (moreThreads 4) moreThreads_valid
  exact ⟨b, r, e ▸ h, by rw [e', ← e, h]⟩

/-- C138, density: two dimensions, five observations, bandwidths from the minimiser; serial, then two threads. -/
example (coords : Matrix (Fin 5) (Fin 2) ℝ) (y : Fin 5 → ℝ) :
    ∃ r, gwdrAutoRun tameGsl 1 1 .serial ![⟨2, false, .Gaussian⟩, ⟨3, false, .Boxcar⟩] coords (ones 5) y true = .ok r ∧
      gwdrAutoRun tameGsl 1 1 (moreThreads 5) ![⟨2, false, .Gaussian⟩, ⟨3, false, .Boxcar⟩] coords (ones 5) y true = .ok r := by
  obtain ⟨r, h⟩ := ex_auto (by decide) ![⟨2, false, .Gaussian⟩, ⟨3, false, .Boxcar⟩] (fun m => by fin_cases m <;> rfl) coords y
  exact ⟨r, h, (C138_density _ _ _ _ moreThreads_valid _ _ _ _ _ r).2 h⟩

end Verif.Props

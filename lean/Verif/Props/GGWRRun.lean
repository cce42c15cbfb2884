import Verif.Model.GGWRRun
import Verif.Spec.LocalScoring
import Verif.Props.GWRGeneralized
import Verif.Props.GLMTrace
import Verif.Props.GWRRidgeRun
import Verif.Props.GTWRRun

/-! Geographically weighted generalised regression from the data to the results (C108, C109). -/

namespace Verif.Props
open Verif Verif.Model Verif.Spec Matrix Classical

variable {n k : ℕ}

/-- The textbook family of the option. -/
noncomputable def textbook : Family → LocalFamily
  | .Poisson => poissonLocal
  | .Binomial => bernoulliLocal

theorem logistic_form (e : ℝ) : Real.exp e / (1 + Real.exp e) = 1 / (1 + Real.exp (-e)) := by
  have := Real.exp_pos e
  rw [Real.exp_neg]
  field_simp
  ring

theorem locMean_textbook (F : Family) (e : ℝ) : locMean F e = (textbook F).mean e := by
  cases F
  · rfl
  · exact logistic_form e

theorem locDen_textbook (F : Family) (m : ℝ) : locDen F m = (textbook F).var m := by cases F <;> rfl

theorem locWork_textbook (F : Family) (m : ℝ) : locWork F m = (textbook F).var m := by
  cases F
  · rfl
  · simp [locWork, textbook, bernoulliLocal]

theorem lgam_ok {t v : ℝ} (h : lgam t = .ok v) : v = Real.log (Real.Gamma t) := by
  unfold lgam at h
  by_cases hc : ∃ m : ℕ, t = -m
  · rw [if_pos hc] at h; cases h
  · rw [if_neg hc] at h; exact (Res.ok.inj h).symm

theorem locLLik_textbook {F : Family} {y mu : Fin n → ℝ} {v : ℝ} (h : locLLik F y mu = .ok v) :
    v = ∑ l, (textbook F).logProb (y l) (mu l) := by
  cases F
  · obtain ⟨t, ht, h⟩ := Res.bind_eq_ok'.1 h
    rw [← Res.ok.inj h]
    refine Finset.sum_congr rfl fun l _ => ?_
    have := Res.tabulate_eq_ok.1 ht l
    obtain ⟨a, ha, hb⟩ := Res.bind_eq_ok'.1 this
    rw [← Res.ok.inj hb, flog_ok ha]
    change _ = y l * Real.log (mu l) - mu l - _
    ring
  · obtain ⟨t, ht, h⟩ := Res.bind_eq_ok'.1 h
    rw [← Res.ok.inj h]
    refine Finset.sum_congr rfl fun l _ => ?_
    have := Res.tabulate_eq_ok.1 ht l
    unfold binomTerm at this
    obtain ⟨a, ha, this⟩ := Res.bind_eq_ok'.1 this
    obtain ⟨b, hb, this⟩ := Res.bind_eq_ok'.1 this
    obtain ⟨c, hc, this⟩ := Res.bind_eq_ok'.1 this
    obtain ⟨d, hd, this⟩ := Res.bind_eq_ok'.1 this
    obtain ⟨e, he, this⟩ := Res.bind_eq_ok'.1 this
    rw [← Res.ok.inj this, lgam_ok ha, lgam_ok hb, lgam_ok hc, flog_ok hd, flog_ok he]
    change _ = bernoulliLogPmf _ _
    unfold bernoulliLogPmf
    rw [div_one, show 1 - y l + 1 = 2 - y l by ring]

/-- A sequence with one more iteration in front. -/
def pushFront {α : Type _} (a : α) (f : ℕ → α) : ℕ → α
  | 0 => a
  | t + 1 => f t

theorem wtLoop_trace {F : Family} {tol : ℝ} {x : Matrix (Fin n) (Fin k) ℝ} {y : Fin n → ℝ} {W : Fin n → Fin n → ℝ} (hW : ∀ i l, 0 ≤ W i l) (fuel : ℕ) :
    ∀ (s : WtState n k) (r : WtState n k × Bool), (∀ l, 0 ≤ s.wt2 l) → wtLoop F tol x y W fuel s = .ok r →
      ∃ (N : ℕ) (q : Sequence n k) (ll : ℕ → ℝ), N ≤ fuel ∧ (0 < fuel → 0 < N) ∧ q.eta 0 = s.nu ∧ q.mu 0 = s.mu ∧ q.v 0 = s.wt2 ∧ ll 0 = s.llik ∧
        q.Iterates (textbook F) x y W N ∧ (∀ t < N, ll (t + 1) = ∑ l, (textbook F).logProb (y l) (q.mu (t + 1) l)) ∧
        (∀ t, t + 1 = N → r.1.yAdj = q.work (textbook F) y t) ∧ r.1.llik = ll N ∧ r.1.mu = q.mu N ∧
        (∀ t, t + 1 < N → ¬ wtConverged tol (ll t) (ll (t + 1))) ∧
        (r.2 = true → ∃ t, t + 1 = N ∧ wtConverged tol (ll t) (ll (t + 1)) ∧ r.1.wt2 = q.v t ∧ r.1.betas = q.b N) ∧
        (r.2 = false → N = fuel ∧ r.1.wt2 = q.v N ∧ ∀ t, t + 1 = N → ¬ wtConverged tol (ll t) (ll (t + 1))) := by
  induction fuel with
  | zero =>
    intro s r hw h
    cases h
    exact ⟨0, ⟨fun _ => s.nu, fun _ => s.mu, fun _ => s.wt2, fun _ => s.betas⟩, fun _ => s.llik, le_rfl, id, rfl, rfl, rfl, rfl,
      fun t ht => absurd ht (Nat.not_lt_zero t), fun t ht => absurd ht (Nat.not_lt_zero t), fun t ht => absurd ht (Nat.succ_ne_zero t), rfl, rfl,
      fun t ht => absurd ht (Nat.not_lt_zero _), fun h => (by cases h), fun _ => ⟨rfl, rfl, fun t ht => absurd ht (Nat.succ_ne_zero t)⟩⟩
  | succ fuel ih =>
    intro s r hw h
    unfold wtLoop at h
    obtain ⟨s', hs, h⟩ := Res.bind_eq_ok'.1 h
    obtain ⟨e1, e2, e3, e4, e5, e6⟩ := wtStep_ok hs
    have hya : s'.yAdj = fun l => s.nu l + (y l - s.mu l) / (textbook F).var (s.mu l) := by
      funext l; rw [(e2 l).2, locDen_textbook]
    have hwls : ∀ i, IsWLS x (fun l => s.nu l + (y l - s.mu l) / (textbook F).var (s.mu l)) (fun l => W i l * s.wt2 l) (s'.betas i) := by
      intro i
      rw [← hya]
      exact (gwPredict_ok (fun l => mul_nonneg (hW i l) (hw l)) (e3 i)).1
    have hmu : ∀ i, s'.mu i = (textbook F).mean (s'.nu i) := fun i => by rw [e5, locMean_textbook]
    have hll := locLLik_textbook e6
    by_cases hc : wtConverged tol s.llik s'.llik
    · rw [if_pos hc] at h
      cases h
      refine ⟨1, ⟨pushFront s.nu fun _ => s'.nu, pushFront s.mu fun _ => s'.mu, pushFront s.wt2 fun _ l => (textbook F).var (s'.mu l), fun _ => s'.betas⟩,
        pushFront s.llik fun _ => s'.llik, by omega, fun _ => one_pos, rfl, rfl, rfl, rfl, ?_, ?_, ?_, rfl, rfl, ?_, ?_, ?_⟩
      · intro t ht
        have : t = 0 := by omega
        subst this
        exact ⟨hwls, e4, hmu, fun _ => rfl⟩
      · intro t ht
        have : t = 0 := by omega
        subst this
        exact hll
      · intro t ht
        have : t = 0 := by omega
        subst this
        exact hya
      · intro t ht; omega
      · intro _
        exact ⟨0, rfl, hc, e1, rfl⟩
      · intro h; cases h
    · rw [if_neg hc] at h
      have hpos : ∀ l, 0 ≤ (fun l => locWork F (s'.mu l)) l := fun l => by
        simp only; rw [e5]; exact (locWork_pos F _).le
      obtain ⟨N, q, ll, h1, h2, h3, h4, h5, h6, h7, h8, h9, h10, h11, h12, h13, h14⟩ := ih _ r hpos h
      simp only at h3 h4 h5 h6
      refine ⟨N + 1, ⟨pushFront s.nu q.eta, pushFront s.mu q.mu, pushFront s.wt2 q.v, pushFront s'.betas (pushFront s'.betas fun u => q.b (u + 1))⟩,
        pushFront s.llik ll, by omega, fun _ => by omega, rfl, rfl, rfl, rfl, ?_, ?_, ?_, h10, h11, ?_, ?_, ?_⟩
      · intro t ht
        rcases t with - | t
        · refine ⟨hwls, fun i => ?_, fun i => ?_, fun i => ?_⟩
          · change q.eta 0 i = _
            rw [h3]; exact e4 i
          · change q.mu 0 i = (textbook F).mean (q.eta 0 i)
            rw [h3, h4]; exact hmu i
          · change q.v 0 i = (textbook F).var (q.mu 0 i)
            rw [h4, h5]; exact locWork_textbook F _
        · have := h7 t (by omega)
          exact this
      · intro t ht
        rcases t with - | t
        · change ll 0 = ∑ l, (textbook F).logProb (y l) (q.mu 0 l)
          rw [h6, h4]; exact hll
        · exact h8 t (by omega)
      · intro t ht
        rcases t with - | t
        · have hN : N = 0 := by omega
          have hf : fuel = 0 := by by_contra hf; have := h2 (by omega); omega
          subst hf
          cases h
          exact hya
        · exact h9 t (by omega)
      · intro t ht
        rcases t with - | t
        · change ¬ wtConverged tol s.llik (ll 0)
          rw [h6]; exact hc
        · exact h12 t (by omega)
      · intro hr
        obtain ⟨t, ht, a, b, c⟩ := h13 hr
        subst ht
        exact ⟨t + 1, rfl, a, b, c⟩
      · intro hr
        obtain ⟨a, b, c⟩ := h14 hr
        refine ⟨by omega, b, fun t ht => ?_⟩
        rcases t with - | t
        · change ¬ wtConverged tol s.llik (ll 0)
          rw [h6]; exact hc
        · exact c t (by omega)

/-- The iterations of a calibration for family `F`, spatial weights `W`, tolerance `tol` and limit `m`: `N` iterations from the documented start, of
which none but possibly the last settles; `conv` says whether the last does, and otherwise the limit is reached. -/
def IsCalibration (F : Family) (tol : ℝ) (m : ℕ) (x : Matrix (Fin n) (Fin k) ℝ) (y : Fin n → ℝ) (W : Fin n → Fin n → ℝ) (N : ℕ) (q : Sequence n k)
    (conv : Bool) : Prop :=
  N + 1 ≤ m ∧ (F = .Poisson → q.StartsPoisson y) ∧ (F = .Binomial → q.StartsBernoulli) ∧ q.Iterates (textbook F) x y W (N + 1) ∧
    (∀ t < N, ¬ q.settled (textbook F) y tol t) ∧ (conv = true ↔ q.settled (textbook F) y tol N) ∧ (conv = false → N + 1 = m)

/-- The working weights in force at the end: those of the last iteration if it settled, newer ones otherwise. -/
def finalWeights (q : Sequence n k) (N : ℕ) (conv : Bool) : Fin n → ℝ := if conv = true then q.v N else q.v (N + 1)

/-- **C108 (calibration).** A calibration that completes is `N + 1` iterations of local scoring as `Spec/LocalScoring.lean` states them. It leaves behind the
working response of its last iteration, the means and log-likelihood after it and, if it did not settle, working weights newer than the working response. -/
theorem C108_calibration (F : Family) (tol : ℝ) (m : ℕ) (hm : 0 < m) (x : Matrix (Fin n) (Fin k) ℝ) (y : Fin n → ℝ) (W : Fin n → Fin n → ℝ)
    (hW : ∀ i l, 0 ≤ W i l) (s : WtState n k) (conv : Bool) (h : wtCalc F tol m x y W = .ok (s, conv)) :
    ∃ N q, IsCalibration F tol m x y W N q conv ∧ s.yAdj = q.work (textbook F) y N ∧ s.wt2 = finalWeights q N conv ∧ s.mu = q.mu (N + 1) ∧
      s.llik = ∑ l, (textbook F).logProb (y l) (q.mu (N + 1) l) ∧ (conv = true → s.betas = q.b (N + 1)) := by
  unfold wtCalc at h
  obtain ⟨nu, hnu, h⟩ := Res.bind_eq_ok'.1 h
  obtain ⟨M, q, ll, h1, h2, h3, h4, h5, h6, h7, h8, h9, h10, h11, h12, h13, h14⟩ := wtLoop_trace hW m _ _ (fun _ => zero_le_one) h
  obtain ⟨N, rfl⟩ : ∃ N, M = N + 1 := ⟨M - 1, by have := h2 hm; omega⟩
  simp only at h3 h4 h5 h6
  have hll : ∀ t ≤ N + 1, ll t = q.loglik (textbook F) y t := by
    intro t ht
    rcases t with - | t
    · rw [h6]; rfl
    · rw [h8 t (by omega)]; rfl
  have hset : ∀ t ≤ N, wtConverged tol (ll t) (ll (t + 1)) ↔ q.settled (textbook F) y tol t := by
    intro t ht
    unfold wtConverged Sequence.settled
    rw [hll t (by omega), hll (t + 1) (by omega), abs_div]
  refine ⟨N, q, ⟨h1, ?_, ?_, h7, fun t ht => ?_, ⟨fun hc => ?_, fun hs => ?_⟩, fun hc => (h14 hc).1⟩, h9 N rfl, ?_, h11, ?_, fun hc => ?_⟩
  · rintro rfl l
    refine ⟨by rw [h4]; rfl, ?_, by rw [h5]⟩
    rw [h3]
    exact flog_ok (Res.tabulate_eq_ok.1 hnu l)
  · rintro rfl l
    refine ⟨by rw [h4]; simp [locMu0], ?_, by rw [h5]⟩
    rw [h3, ← Res.ok.inj hnu]; rfl
  · rw [← hset t (by omega)]; exact h12 t (by omega)
  · obtain ⟨t, ht, hx, -⟩ := h13 hc
    have : t = N := by omega
    subst this
    exact (hset t le_rfl).1 hx
  · by_contra hcon
    have hf : conv = false := by simpa using hcon
    exact (h14 hf).2.2 N rfl ((hset N le_rfl).2 hs)
  · unfold finalWeights
    cases conv with
    | true =>
      rw [if_pos rfl]
      obtain ⟨t, ht, -, hx, -⟩ := h13 rfl
      have : t = N := by omega
      subst this
      exact hx
    | false =>
      rw [if_neg (by simp)]
      exact (h14 rfl).2.1
  · rw [h10, h8 N (by omega)]
  · obtain ⟨t, ht, -, -, hx⟩ := h13 hc
    exact hx

/-- What a fit with spatial weights `W` reports: coefficients, standard errors and diagnostics, in terms of a calibration. `C i j l` is coefficient `j` at
location `i` of the response that is 1 at observation `l` and 0 elsewhere. -/
structure IsGeneralisedFit (F : Family) (tol : ℝ) (m : ℕ) (x : Matrix (Fin n) (Fin k) ℝ) (y : Fin n → ℝ) (W : Fin n → Fin n → ℝ) (r : GgwrResult n k)
    (N : ℕ) (q : Sequence n k) (C : Fin n → Fin k → Fin n → ℝ) : Prop where
  calibration : IsCalibration F tol m x y W N q r.converged
  coefficients : ∀ i, IsWLS x (q.work (textbook F) y N) (fun l => W i l * finalWeights q N r.converged l) (r.betas i)
  settled : r.converged = true → ∀ i, r.betas i = q.b (N + 1) i
  unit : ∀ i l, IsWLS x (Pi.single l 1) (fun l => W i l * finalWeights q N r.converged l) fun j => C i j l
  se : ∀ i j, r.se i j = Real.sqrt (∑ l, C i j l ^ 2 / finalWeights q N r.converged l)
  trace : r.shat 0 = ∑ i, ∑ j, x i j * C i j i
  trace2 : r.shat 1 = ∑ i, ∑ l, (∑ j, x i j * C i j l) ^ 2
  aic : r.aic = r.dev + 2 * r.shat 0
  aicc : r.aicc = r.aic + 2 * r.shat 0 * (r.shat 0 + 1) / (n - r.shat 0 - 1)
  rSquare : r.rSquare = 1 - r.dev / r.glm.nullDev
  devPoisson : F = .Poisson → (∀ i, 0 ≤ y i) → r.dev = ∑ i, poissonUnitDev (y i) (q.mu (N + 1) i)
  devBinary : F = .Binomial → (∀ i, y i = 0 ∨ y i = 1) → r.dev = ∑ i, binomialUnitDev (y i) (1 / (1 + Real.exp (-∑ j, x i j * r.betas i j)))
  nullPoisson : F = .Poisson → (∀ i, 0 ≤ y i) → (∃ i, 0 < y i) → r.glm.nullDev = ∑ i, poissonUnitDev (y i) ((∑ l, y l) / n)
  nullBinary : F = .Binomial → (∀ i, 0 ≤ y i ∧ y i ≤ 1) → (∃ i, 0 < y i) → (∃ i, y i < 1) →
    r.glm.nullDev = ∑ i, binomialUnitDev (y i) ((∑ l, y l) / n)

theorem localFitInv_ci {x : Matrix (Fin n) (Fin k) ℝ} {y w : Fin n → ℝ} {xi : Fin k → ℝ} {lf : LocalFit n k}
    (h : localFitInv x y w xi = .ok lf) (l : Fin n) : gwPredict x (Pi.single l 1) w = .ok fun j => lf.ci j l := by
  unfold localFitInv at h
  obtain ⟨inv, hi, h⟩ := Res.bind_eq_ok'.1 h
  cases h
  unfold gwPredict
  rw [hi, Res.bind, mulVec_mulVec, mulVec_single_one]
  rfl

theorem localFitInv_row {x : Matrix (Fin n) (Fin k) ℝ} {y w : Fin n → ℝ} {xi : Fin k → ℝ} {lf : LocalFit n k}
    (h : localFitInv x y w xi = .ok lf) (l : Fin n) : lf.si l = ∑ j, xi j * lf.ci j l := by
  obtain ⟨b, hb, e⟩ := localFitInv_si h l
  rw [localFitInv_ci h l] at hb
  rw [e, ← Res.ok.inj hb]

theorem ggwrFit_explicit {F : Family} {tol : ℝ} {m : ℕ} (hm : 0 < m) {x : Matrix (Fin n) (Fin k) ℝ} {y : Fin n → ℝ} {W : Fin n → Fin n → ℝ}
    (hW : ∀ i l, 0 ≤ W i l) {ex : Exec n} (hex : ex.Valid) {r : GgwrResult n k} (h : ggwrFit F tol m x y W ex = .ok r) :
    ∃ N q C, IsGeneralisedFit F tol m x y W r N q C := by
  obtain ⟨h1, h2, h3, h4, h5, h6, lf, e1, e2, e3, e4⟩ := ggwrFit_ok hex h
  obtain ⟨N, q, c1, c2, c3, c4, c5, c6⟩ := C108_calibration F tol m hm x y W hW _ _ h2
  have hp := wtCalc_wt2 h2
  have hw : ∀ i l, 0 ≤ W i l * finalWeights q N r.converged l := fun i l => by rw [← c3]; exact mul_nonneg (hW i l) (hp l).le
  refine ⟨N, q, fun i j l => (lf i).ci j l, c1, fun i => ?_, fun hc i => ?_, fun i l => ?_, fun i j => by rw [e3, c3], ?_, ?_, h5, ?_, ?_, ?_, ?_, ?_, ?_⟩
  · rw [e2, ← c2]
    refine (gwPredict_ok (hw i) ?_).1
    rw [← c3]; exact localFitInv_ok (e1 i)
  · rw [← c6 hc, e2]
    exact Res.ok.inj ((localFitInv_ok (e1 i)).symm.trans ((wtCalc_inv hm h2).betas hc i))
  · refine (gwPredict_ok (hw i) ?_).1
    rw [← c3]; exact localFitInv_ci (e1 i) l
  · rw [e4, Finset.sum_apply]
    exact Finset.sum_congr rfl fun i _ => localFitInv_row (e1 i) i
  · rw [e4, Finset.sum_apply]
    refine Finset.sum_congr rfl fun i _ => ?_
    simp only [← localFitInv_row (e1 i)]
    simp [shatRow, sq]
  · have := fdiv_ok h6; linarith
  · have := fdiv_ok h4; linarith
  · rintro rfl hy
    have hmu : ∀ i, 0 < r.cal.mu i := fun i => by rw [(wtCalc_inv hm h2).mu i]; exact Real.exp_pos _
    rw [← c4]
    exact Res.ok.inj (h3.symm.trans (gwDevPoisson_eq y _ hy hmu))
  · rintro rfl hy
    rw [(C89_binomial_deviance hex hy h).1]
    refine Finset.sum_congr rfl fun i _ => ?_
    rw [← logistic_form]; rfl
  · rintro rfl hy hy0
    exact (C107_poisson_diagnostics (by rintro rfl; exact hy0.choose.elim0) x y hy hy0 _ h1).2.1
  · rintro rfl hy hy0 hy1
    exact (C107_logistic_diagnostics x y hy hy0 hy1 _ h1).2.1

/-- **C108 (fixed bandwidth).** A completed fit reports what is said there for the kernel weights of the distances between the coordinates, however
the loop over the locations is run. -/
theorem C108_fit (F : Family) (tol : ℝ) (m : ℕ) (hm : 0 < m) (p : Option (DynMat × DynMat)) (kernel : KernelType) (bw : ℝ) (hb : 0 < bw)
    (coords : DynMat) (x : Matrix (Fin n) (Fin k) ℝ) (y : Fin n → ℝ) (ex : Exec n) (hex : ex.Valid) (r : GgwrResult n k)
    (h : ggwrRun F tol m ⟨false, p⟩ ⟨bw, false, kernel⟩ coords x y ex = .ok r) :
    ∃ N q C, IsGeneralisedFit F tol m x y (fun i l => kernelFormula kernel bw (plane (coords.val i) (coords.val l))) r N q C := by
  unfold ggwrRun at h
  rw [Res.bind_eq_ok'] at h
  obtain ⟨d', hd, h⟩ := h
  rw [Res.bind_eq_ok'] at h
  obtain ⟨W, hW, h⟩ := h
  obtain ⟨-, -, rfl⟩ := bindLocations_eq_ok.1 hd
  have e : W = fun i l : Fin n => kernelFormula kernel bw (plane (coords.val i) (coords.val l)) :=
    funext fun i => ((weights_fixed hb).1 hW i).2.2
  subst e
  exact ggwrFit_explicit hm (fun i l => kernelFormula_nonneg _ hb _) hex h

/-- **C108 (adaptive bandwidth).** The same when the bandwidth is the distance to the `q`-th nearest observation, if no such distance is zero. -/
theorem C108_adaptive_fit (F : Family) (tol : ℝ) (m : ℕ) (hm : 0 < m) (p : Option (DynMat × DynMat)) (kernel : KernelType) (u : ℕ) (h1 : 1 ≤ u)
    (h2 : u < n) (h3 : u < 2147483648) (coords : DynMat) (x : Matrix (Fin n) (Fin k) ℝ) (y : Fin n → ℝ)
    (hr : ∀ (i : Fin n) (r : ℝ), IsKthSmallest (fun l : Fin n => plane (coords.val i) (coords.val l)) u r → 0 < r) (ex : Exec n)
    (hex : ex.Valid) (r : GgwrResult n k) (h : ggwrRun F tol m ⟨false, p⟩ ⟨u, true, kernel⟩ coords x y ex = .ok r) :
    ∃ rad : Fin n → ℝ, (∀ i : Fin n, IsKthSmallest (fun l : Fin n => plane (coords.val i) (coords.val l)) u (rad i)) ∧
      ∃ N q C, IsGeneralisedFit F tol m x y (fun i l => kernelFormula kernel (rad i) (plane (coords.val i) (coords.val l))) r N q C := by
  unfold ggwrRun at h
  rw [Res.bind_eq_ok'] at h
  obtain ⟨d', hd, h⟩ := h
  rw [Res.bind_eq_ok'] at h
  obtain ⟨W, hW, h⟩ := h
  obtain ⟨-, -, rfl⟩ := bindLocations_eq_ok.1 hd
  choose rad hrad e using fun i => weights_adaptive h1 h2 h3 hr hW i
  have e : W = fun i l : Fin n => kernelFormula kernel (rad i) (plane (coords.val i) (coords.val l)) := funext e
  subst e
  exact ⟨rad, hrad, ggwrFit_explicit hm (fun i l => kernelFormula_nonneg _ (hr i _ (hrad i)) _) hex h⟩

/-- The cross-validation score of spatial weights `W`: calibrate with every observation's own weight set to zero, fit the working response once more at
every location in the same way, and sum the squared differences of responses and means (the largest double if that is smaller). -/
def IsCVScore (F : Family) (tol : ℝ) (m : ℕ) (x : Matrix (Fin n) (Fin k) ℝ) (y : Fin n → ℝ) (W : Fin n → Fin n → ℝ) (v : ℝ) : Prop :=
  ∃ (N : ℕ) (q : Sequence n k) (conv : Bool) (B : Fin n → Fin k → ℝ), IsCalibration F tol m x y (fun i l => if l = i then 0 else W i l) N q conv ∧
    (∀ i, IsWLS x (q.work (textbook F) y N) (fun l => (if l = i then 0 else W i l) * finalWeights q N conv l) (B i)) ∧
    v = min (∑ i, (y i - (textbook F).mean (∑ j, x i j * B i j)) ^ 2) dblMax

/-- The corrected information criterion of spatial weights `W`: minus twice the log-likelihood of the calibrated means, plus twice the trace of the hat
matrix and its small-sample correction. -/
def IsAICScore (F : Family) (tol : ℝ) (m : ℕ) (x : Matrix (Fin n) (Fin k) ℝ) (y : Fin n → ℝ) (W : Fin n → Fin n → ℝ) (v : ℝ) : Prop :=
  ∃ (N : ℕ) (q : Sequence n k) (conv : Bool) (C : Fin n → Fin k → Fin n → ℝ) (tr : ℝ), IsCalibration F tol m x y W N q conv ∧
    (∀ i l, IsWLS x (Pi.single l 1) (fun l => W i l * finalWeights q N conv l) fun j => C i j l) ∧ tr = ∑ i, ∑ j, x i j * C i j i ∧
    v = -2 * (∑ l, (textbook F).logProb (y l) (q.mu (N + 1) l)) + 2 * tr + 2 * tr * (tr + 1) / (n - tr - 1)

theorem cv_score {F : Family} {tol : ℝ} {m : ℕ} (hm : 0 < m) {x : Matrix (Fin n) (Fin k) ℝ} {y : Fin n → ℝ} {W : Fin n → Fin n → ℝ}
    (hW : ∀ i l, 0 ≤ W i l) {v : ℝ} (h : ggwrCVSerial F tol m x y W = .ok v) : IsCVScore F tol m x y W v := by
  have ecv : cvWeight W = fun i l => if l = i then 0 else W i l := funext fun i => cvWeight_fixed W i rfl
  have hcv : ∀ i l, 0 ≤ cvWeight W i l := fun i l => by
    rw [ecv]; simp only; by_cases h : l = i
    · rw [if_pos h]
    · rw [if_neg h]; exact hW i l
  unfold ggwrCVSerial at h
  obtain ⟨c, hc, h⟩ := Res.bind_eq_ok'.1 h
  obtain ⟨⟨rv, rt⟩, hr, h⟩ := Res.bind_eq_ok'.1 h
  have hrt : rt = false := serialFor_nostop _ _ _ hr
  subst hrt
  have hok := serialFor_complete _ _ _ _ hr
  choose f hf using fun i => hok i (List.mem_finRange i)
  have hfold := serialFor_eq_fold _ _ _ _ hr f fun i _ => hf i
  rw [foldl_rows_finRange] at hfold
  rw [hfold] at h
  have hB : ∀ i, ∃ b, gwPredict x c.1.yAdj (fun l => cvWeight W i l * c.1.wt2 l) = .ok b ∧ f i = y i - locMean F (∑ j, x i j * b j) := by
    intro i
    obtain ⟨b, hb, h⟩ := Res.bind_eq_ok'.1 (hf i)
    exact ⟨b, hb, (Res.ok.inj h).symm⟩
  choose B hB1 hB2 using hB
  obtain ⟨N, q, c1, c2, c3, -⟩ := C108_calibration F tol m hm x y _ hcv c.1 c.2 hc
  have hp := wtCalc_wt2 (s := c.1) (c := c.2) hc
  refine ⟨N, q, c.2, B, by rw [← ecv]; exact c1, fun i => ?_, ?_⟩
  · have := (gwPredict_ok (fun l => mul_nonneg (hcv i l) (hp l).le) (hB1 i)).1
    rw [c2, c3, ecv] at this
    exact this
  · have e : ∑ i, f i * f i = ∑ i, (y i - (textbook F).mean (∑ j, x i j * B i j)) ^ 2 :=
      Finset.sum_congr rfl fun i _ => by rw [hB2, locMean_textbook, sq]
    have hnn : 0 ≤ ∑ i, f i * f i := Finset.sum_nonneg fun i _ => mul_self_nonneg _
    rw [← Res.ok.inj h, ← e]
    unfold finiteOrMax
    simp only
    rw [abs_of_nonneg hnn]
    by_cases hle : ∑ i, f i * f i ≤ dblMax
    · rw [if_pos hle, min_eq_left hle]
    · rw [if_neg hle, min_eq_right (le_of_not_ge hle)]

theorem aic_score {F : Family} {tol : ℝ} {m : ℕ} (hm : 0 < m) {x : Matrix (Fin n) (Fin k) ℝ} {y : Fin n → ℝ} {W : Fin n → Fin n → ℝ}
    (hW : ∀ i l, 0 ≤ W i l) {v : ℝ} (h : ggwrAICSerial F tol m x y W = .ok v) : IsAICScore F tol m x y W v := by
  unfold ggwrAICSerial at h
  obtain ⟨c, hc, h⟩ := Res.bind_eq_ok'.1 h
  obtain ⟨⟨rv, rt⟩, hr, h⟩ := Res.bind_eq_ok'.1 h
  have hrt : rt = false := serialFor_nostop _ _ _ hr
  subst hrt
  have hok := serialFor_complete _ _ _ _ hr
  choose f hf using fun i => hok i (List.mem_finRange i)
  have hfold := serialFor_eq_fold _ _ _ _ hr f fun i _ => hf i
  rw [foldl_add, zero_add, ← List.ofFn_eq_map, List.sum_ofFn] at hfold
  have hB : ∀ i, ∃ lf, localFitInv x c.1.yAdj (fun l => W i l * c.1.wt2 l) (x i) = .ok lf ∧ f i = lf.si i := by
    intro i
    obtain ⟨b, hb, h⟩ := Res.bind_eq_ok'.1 (hf i)
    exact ⟨b, hb, (Res.ok.inj h).symm⟩
  choose lf hl1 hl2 using hB
  obtain ⟨N, q, c1, c2, c3, -, c5, -⟩ := C108_calibration F tol m hm x y _ hW c.1 c.2 hc
  have hp := wtCalc_wt2 (s := c.1) (c := c.2) hc
  refine ⟨N, q, c.2, fun i j l => (lf i).ci j l, rv, c1, fun i l => ?_, ?_, ?_⟩
  · rw [← c3]
    exact (gwPredict_ok (fun l => mul_nonneg (hW i l) (hp l).le) (localFitInv_ci (hl1 i) l)).1
  · rw [hfold]
    exact Finset.sum_congr rfl fun i _ => by rw [hl2, localFitInv_row (hl1 i)]
  · unfold ggwrAICc at h
    obtain ⟨z, hz, h⟩ := Res.bind_eq_ok'.1 h
    rw [← Res.ok.inj h, fdiv_ok hz, c5]

/-- The score of the chosen criterion. -/
def IsScore (crit : GgwrCriterionType) (F : Family) (tol : ℝ) (m : ℕ) (x : Matrix (Fin n) (Fin k) ℝ) (y : Fin n → ℝ) (W : Fin n → Fin n → ℝ) (v : ℝ) : Prop :=
  match crit with
  | .AIC => IsAICScore F tol m x y W v
  | .CV => IsCVScore F tol m x y W v

/-- **C108 (bandwidth choice).** With a fixed-bandwidth kernel, a fit with automatic selection keeps the kernel; its bandwidth is one of the bandwidths
it evaluated, all between 0 and the largest distance between observations, and none of them has a smaller score of the chosen criterion; the results are those of
the fit with that bandwidth. -/
theorem C108_bandwidth_choice (F : Family) (tol : ℝ) (m : ℕ) (hm : 0 < m) (crit : GgwrCriterionType) (p : Option (DynMat × DynMat))
    (kernel : KernelType) (bw0 : ℝ) (b : BandwidthWeight) (coords : DynMat) (hn : coords.nRows ≠ 0) (x : Matrix (Fin n) (Fin k) ℝ)
    (y : Fin n → ℝ) (r : GgwrResult n k) (h : ggwrAutoRun F tol m crit ⟨false, p⟩ ⟨bw0, false, kernel⟩ coords x y = .ok (b, r)) :
    (b.mAdaptive = false ∧ b.mKernel = kernel ∧ ∃ tried : List (ℝ × ℝ), 2 ≤ tried.length ∧
      (∃ v, (b.mBandwidth, v) ∈ tried ∧ ∀ q ∈ tried, v ≤ q.2) ∧
      (∃ i j, i < coords.nRows ∧ j < coords.nRows ∧ ∀ q ∈ tried, 0 ≤ q.1 ∧ q.1 ≤ plane (coords.val i) (coords.val j)) ∧
      ∀ q ∈ tried, 0 < q.1 →
        IsScore crit F tol m x y (fun i l => kernelFormula kernel q.1 (plane (coords.val i) (coords.val l))) q.2) ∧
    (0 < b.mBandwidth → ∃ N q C,
      IsGeneralisedFit F tol m x y (fun i l => kernelFormula kernel b.mBandwidth (plane (coords.val i) (coords.val l))) r N q C) := by
  unfold ggwrAutoRun at h
  rw [Res.bind_eq_ok'] at h
  obtain ⟨d', hd, h⟩ := h
  rw [Res.bind_eq_ok'] at h
  obtain ⟨sr, hs, h⟩ := h
  rw [Res.bind_eq_ok'] at h
  obtain ⟨b', hb', h⟩ := h
  rw [Res.bind_eq_ok'] at h
  obtain ⟨W, hW, h⟩ := h
  rw [Res.bind_eq_ok'] at h
  obtain ⟨f, hfit, h⟩ := h
  obtain ⟨-, hc2, rfl⟩ := bindLocations_eq_ok.1 hd
  obtain ⟨rfl, rfl⟩ := Prod.mk.inj (Res.ok.inj h)
  unfold ggwrSelectBandwidth at hs
  simp only [Bool.false_eq_true, if_false] at hs
  rw [Res.bind_eq_ok'] at hs
  obtain ⟨M, hM, hs⟩ := hs
  have hM0 : 0 ≤ M := (maxLoop_spec hM).1
  have hMat : ∃ i j, i < coords.nRows ∧ j < coords.nRows ∧ M ≤ plane (coords.val i) (coords.val j) := by
    rcases (maxLoop_spec hM).2.2 with e | ⟨i, hi, l, hl', hm⟩
    · exact ⟨0, 0, by omega, by omega, by rw [e]; exact Real.sqrt_nonneg _⟩
    · rw [crsDistRow_planar] at hl'
      rw [← Res.ok.inj hl', List.mem_map] at hm
      obtain ⟨j, hj, e⟩ := hm
      exact ⟨i, j, List.mem_range.1 hi, List.mem_range.1 hj, by rw [← e, euclid_eq_plane]⟩
  by_cases hc : ∀ e ∈ (optimize ⟨bw0, false, kernel⟩ 0 M
      (fun _ b => (true, ggwrScore F tol m crit ⟨false, some (coords, coords)⟩ x y b)) []).evals,
      ∃ v, ggwrCriterion F tol m crit ⟨false, some (coords, coords)⟩ x y ⟨e.x, false, kernel⟩ = .ok v
  · rw [if_pos hc] at hs
    have hs' := (Res.ok.inj hs).symm
    subst hs'
    have hev := optimize_evals ⟨bw0, false, kernel⟩ 0 M
      (fun b => ggwrScore F tol m crit ⟨false, some (coords, coords)⟩ x y b) []
    obtain ⟨e, he, hx, hmin⟩ := C14_returns_best_evaluated _ _ _ _ _ _ hb' fun e he => (hev e he).1
    obtain ⟨hk1, hk2⟩ := C17_kernel_kind_kept _ _ _ _ _ _ hb'
    have hin := (C15_fixed_within_bounds ⟨bw0, false, kernel⟩ rfl 0 M hM0
      (fun _ b => (true, ggwrScore F tol m crit ⟨false, some (coords, coords)⟩ x y b)) []).1
    obtain ⟨i, j, hi, hj, hij⟩ := hMat
    refine ⟨⟨hk2, hk1, (optimize ⟨bw0, false, kernel⟩ 0 M
      (fun _ b => (true, ggwrScore F tol m crit ⟨false, some (coords, coords)⟩ x y b)) []).evals.map
        fun e => (e.x, e.f), ?_, ⟨e.f, List.mem_map.2 ⟨e, he, by rw [hx]⟩, ?_⟩, ⟨i, j, hi, hj, ?_⟩, ?_⟩, ?_⟩
    · rw [List.length_map]; exact (C16_call_bound _ _ _ _ _).1
    · rintro q hq
      obtain ⟨e', he', rfl⟩ := List.mem_map.1 hq
      exact hmin e' he'
    · rintro q hq
      obtain ⟨e', he', rfl⟩ := List.mem_map.1 hq
      exact ⟨(hin e' he').1, (hin e' he').2.trans hij⟩
    · rintro q hq hpos
      obtain ⟨e', he', rfl⟩ := List.mem_map.1 hq
      obtain ⟨v, hv⟩ := hc e' he'
      have hfe := (hev e' he').2
      simp only [ggwrScore, hv] at hfe
      unfold ggwrCriterion at hv
      rw [Res.bind_eq_ok'] at hv
      obtain ⟨W', hW', hv⟩ := hv
      have e : W' = fun i l : Fin n => kernelFormula kernel e'.x (plane (coords.val i) (coords.val l)) :=
        funext fun i => ((weights_fixed hpos).1 hW' i).2.2
      subst e
      simp only [hfe]
      cases crit with
      | AIC => exact aic_score hm (fun i l => kernelFormula_nonneg _ hpos _) hv
      | CV => exact cv_score hm (fun i l => kernelFormula_nonneg _ hpos _) hv
    · intro hpos
      obtain ⟨bw, ad, ker⟩ := b'
      cases hk1
      cases hk2
      have e : W = fun i l : Fin n => kernelFormula kernel bw (plane (coords.val i) (coords.val l)) :=
        funext fun i => ((weights_fixed hpos).1 hW i).2.2
      subst e
      exact ggwrFit_explicit hm (fun i l => kernelFormula_nonneg _ hpos _) (ex := .serial) trivial hfit
  · rw [if_neg hc] at hs; cases hs

/-! ## Local likelihood -/

/-- A calibration has come to rest at coefficients `B`: the working response and working weights they give lead back to them. -/
def AtRest (x : Matrix (Fin n) (Fin k) ℝ) (y : Fin n → ℝ) (W : Fin n → Fin n → ℝ) (B : Fin n → Fin k → ℝ) : Prop :=
  ∃ s : WtState n k, (∀ l, s.nu l = ∑ j, x l j * B l j) ∧ (∀ l, s.mu l = Real.exp (s.nu l)) ∧ (∀ l, s.wt2 l = s.mu l) ∧
    ∃ s', wtStep .Poisson x y W s = .ok s' ∧ s'.betas = B

theorem atRest_normal {x : Matrix (Fin n) (Fin k) ℝ} {y : Fin n → ℝ} {W : Fin n → Fin n → ℝ} (hW : ∀ i l, 0 ≤ W i l) {B : Fin n → Fin k → ℝ}
    (h : AtRest x y W B) (i : Fin n) (j : Fin k) :
    ∑ l, W i l * x l j * (y l - Real.exp (∑ a, x l a * B l a) + Real.exp (∑ a, x l a * B l a) * (∑ a, x l a * B l a - ∑ a, x l a * B i a)) = 0 := by
  obtain ⟨s, h1, h2, h3, s', hs, rfl⟩ := h
  obtain ⟨-, e2, e3, -⟩ := wtStep_ok hs
  have hp : ∀ l, 0 < s.mu l := fun l => by rw [h2]; exact Real.exp_pos _
  have hn := (gwPredict_ok (fun l => mul_nonneg (hW i l) (by rw [h3]; exact (hp l).le)) (e3 i)).2.2
  rw [xtwx_mulVec] at hn
  have hj := congrFun hn j
  simp only [mulVec, dotProduct, xtw, of_apply] at hj
  rw [← sub_eq_zero, ← Finset.sum_sub_distrib, ← neg_eq_zero, ← Finset.sum_neg_distrib] at hj
  rw [← hj]
  refine Finset.sum_congr rfl fun l _ => ?_
  have hm := (hp l).ne'
  rw [(e2 l).2, h3, ← h1, ← h2]
  change _ = -(x l j * (W i l * s.mu l) * _ - x l j * (W i l * s.mu l) * (s.nu l + (y l - s.mu l) / s.mu l))
  field_simp
  ring

/-- **C109, partial.** Where all observations with weight have linear predictors that agree with the local coefficients, coefficients at rest maximise
the locally weighted Poisson likelihood. Missing: locations whose neighbours have other coefficients (`C109_local_likelihood_fails`). -/
theorem C109_local_likelihood_partial (x : Matrix (Fin n) (Fin k) ℝ) (y : Fin n → ℝ) (W : Fin n → Fin n → ℝ) (hW : ∀ i l, 0 ≤ W i l)
    (B : Fin n → Fin k → ℝ) (h : AtRest x y W B) (i : Fin n) (hi : ∀ l, 0 < W i l → ∑ j, x l j * B l j = ∑ j, x l j * B i j) (b : Fin k → ℝ) :
    localPoissonLL x y (W i) b ≤ localPoissonLL x y (W i) (B i) := by
  have hs : ∀ j, ∑ l, x l j * (W i l * (y l - Real.exp (∑ a, x l a * B i a))) = 0 := by
    intro j
    rw [← atRest_normal hW h i j]
    refine Finset.sum_congr rfl fun l _ => ?_
    rcases (hW i l).eq_or_lt with h0 | h0
    · rw [← h0]; ring
    · rw [hi l h0]; ring
  have hd := score_dot hs (b - B i)
  unfold localPoissonLL
  rw [← add_zero (∑ l, W i l * (y l * (∑ j, x l j * B i j) - _)), ← hd, ← Finset.sum_add_distrib]
  refine Finset.sum_le_sum fun l _ => ?_
  have e : ∑ j, x l j * (b - B i) j = ∑ j, x l j * b j - ∑ j, x l j * B i j := by
    rw [← Finset.sum_sub_distrib]; exact Finset.sum_congr rfl fun j _ => by rw [Pi.sub_apply]; ring
  rw [e]
  set p := ∑ j, x l j * b j
  set q := ∑ j, x l j * B i j
  have t : Real.exp q * (p - q + 1) ≤ Real.exp p := by
    have := mul_le_mul_of_nonneg_left (Real.add_one_le_exp (p - q)) (Real.exp_pos q).le
    rwa [← Real.exp_add, add_sub_cancel] at this
  nlinarith [hW i l]

/-- Two locations that see each other with weight `g`. -/
def twoW (g : ℝ) : Fin 2 → Fin 2 → ℝ := ![![1, g], ![g, 1]]

/-- A maximiser of the locally weighted likelihood of an intercept satisfies the likelihood equation. -/
theorem ones_score {y w : Fin 2 → ℝ} {b : Fin 1 → ℝ} (h : ∀ b', localPoissonLL (ones 2) y w b' ≤ localPoissonLL (ones 2) y w b) :
    ∑ l, w l * (y l - Real.exp (b 0)) = 0 := by
  have e : ∀ t : ℝ, localPoissonLL (ones 2) y w (fun _ => t) = ∑ l, w l * (y l * t - Real.exp t) := by
    intro t; simp [localPoissonLL, ones]
  have hb : b = fun _ => b 0 := by funext j; fin_cases j; rfl
  have hd : HasDerivAt (fun t : ℝ => ∑ l, w l * (y l * t - Real.exp t)) (∑ l, w l * (y l * 1 - Real.exp (b 0))) (b 0) := by
    refine HasDerivAt.fun_sum fun l _ => ?_
    exact (((hasDerivAt_id (b 0)).const_mul (y l)).sub (Real.hasDerivAt_exp _)).const_mul (w l)
  have hm : IsLocalMax (fun t : ℝ => ∑ l, w l * (y l * t - Real.exp t)) (b 0) := by
    refine Filter.Eventually.of_forall fun t => ?_
    have := h fun _ => t
    rw [hb, e, e] at this
    exact this
  have := hm.hasDerivAt_eq_zero hd
  simpa using this

/-- **C109 fails.** Two locations that see each other, an intercept and two different counts: whatever the weight between them, coefficients at rest never
maximise the locally weighted likelihood at both locations. -/
theorem C109_local_likelihood_fails (g : ℝ) (hg : 0 < g) (hg1 : g < 1) (y : Fin 2 → ℝ) (hy : y 0 ≠ y 1) (B : Fin 2 → Fin 1 → ℝ)
    (h : AtRest (ones 2) y (twoW g) B) : ∃ i b, localPoissonLL (ones 2) y (twoW g i) (B i) < localPoissonLL (ones 2) y (twoW g i) b := by
  by_contra hcon
  push Not at hcon
  have hW : ∀ i l, 0 ≤ twoW g i l := by
    intro i l; fin_cases i <;> fin_cases l <;> simp [twoW, hg.le]
  have s0 := ones_score (hcon 0)
  have s1 := ones_score (hcon 1)
  have n0 := atRest_normal hW h 0 0
  have n1 := atRest_normal hW h 1 0
  simp only [Fin.sum_univ_two, Fin.sum_univ_one, ones, twoW, one_mul, mul_one, cons_val', cons_val_zero, cons_val_one, cons_val_fin_one] at s0 s1 n0 n1
  set p := B 0 0
  set q := B 1 0
  have k2 : q - p = 1 - Real.exp (p - q) := by
    have hq := Real.exp_pos q
    have : g * (Real.exp q * (q - p) - (Real.exp q - Real.exp p)) = 0 := by linarith
    have h2 := (mul_eq_zero.1 this).resolve_left hg.ne'
    rw [Real.exp_sub]
    field_simp
    linarith
  have k3 : p = q := by
    by_contra hne
    have := Real.add_one_lt_exp (sub_ne_zero.2 hne)
    linarith
  rw [k3] at s0
  have : (1 - g) * (y 0 - y 1) = 0 := by linarith
  rcases mul_eq_zero.1 this with h0 | h0
  · linarith
  · exact hy (by linarith)

/-- Responses and coefficients at rest to which C109 applies. -/
theorem ex_atRest : AtRest (ones 2) ![1 - 4 / 3 * Real.log (3 / 2), 3 / 2 + 7 / 6 * Real.log (3 / 2)] (twoW (1 / 2)) ![fun _ => 0, fun _ => Real.log (3 / 2)] := by
  set L := Real.log (3 / 2) with hL
  have hL0 : 0 < L := Real.log_pos (by norm_num)
  have hL1 : L ≤ 1 / 2 := by have := Real.log_le_sub_one_of_pos (show (0 : ℝ) < 3 / 2 by norm_num); rw [hL]; linarith
  have he : Real.exp L = 3 / 2 := Real.exp_log (by norm_num)
  have hW : ∀ i l, 0 ≤ twoW (1 / 2) i l := by
    intro i l; fin_cases i <;> fin_cases l <;> norm_num [twoW]
  have hW1 : ∀ i, ∃ l, 0 < twoW (1 / 2) i l := fun i => ⟨i, by fin_cases i <;> norm_num [twoW]⟩
  have hy : Accepts (n := 2) .Poisson ![1 - 4 / 3 * L, 3 / 2 + 7 / 6 * L] := by
    intro i; fin_cases i
    · change 0 ≤ 1 - 4 / 3 * L; linarith
    · change 0 ≤ 3 / 2 + 7 / 6 * L; linarith
  have hmu : ∀ l, (![1, 3 / 2] : Fin 2 → ℝ) l = Real.exp ((![0, L] : Fin 2 → ℝ) l) := by
    rw [Fin.forall_fin_two]; exact ⟨Real.exp_zero.symm, he.symm⟩
  have hp : ∀ l, 0 < (![1, 3 / 2] : Fin 2 → ℝ) l := by rw [Fin.forall_fin_two]; exact ⟨one_pos, by norm_num⟩
  refine ⟨⟨![0, L], ![1, 3 / 2], ![1, 3 / 2], 0, 0, 0⟩, ?_, hmu, fun _ => rfl, ?_⟩
  · rw [Fin.forall_fin_two]; simp [ones]
  obtain ⟨s', hs⟩ := wtStep_total (F := .Poisson) (x := ones 2) hy hW (fun i => ones_det (hW i) (hW1 i))
    (⟨![0, L], ![1, 3 / 2], ![1, 3 / 2], 0, 0, 0⟩ : WtState 2 1) hp hp
  refine ⟨s', hs, ?_⟩
  obtain ⟨-, e2, e3, -⟩ := wtStep_ok hs
  have hb : ∀ i, s'.betas i = fun _ => (∑ l, twoW (1 / 2) i l * (![1, 3 / 2] : Fin 2 → ℝ) l * s'.yAdj l) / ∑ l, twoW (1 / 2) i l * (![1, 3 / 2] : Fin 2 → ℝ) l := by
    intro i
    have := e3 i
    rw [ones_predict (fun l => mul_nonneg (hW i l) (hp l).le) (by obtain ⟨l, hl⟩ := hW1 i; exact ⟨l, mul_pos hl (hp l)⟩)] at this
    exact (Res.ok.inj this).symm
  have y0 : s'.yAdj 0 = 0 + (1 - 4 / 3 * L - 1) / 1 := (e2 0).2
  have y1 : s'.yAdj 1 = L + (3 / 2 + 7 / 6 * L - 3 / 2) / (3 / 2) := (e2 1).2
  funext i
  rw [hb]
  revert i
  rw [Fin.forall_fin_two]
  simp only [Fin.sum_univ_two, y0, y1]
  constructor
  · funext j
    simp only [twoW, cons_val_zero, cons_val_one, cons_val_fin_one, cons_val']
    ring
  · funext j
    simp only [twoW, cons_val_zero, cons_val_one, cons_val_fin_one, cons_val']
    ring

/-- A run to which C108 applies: three points on a line, an intercept, counts 0, 1, 4. -/
theorem ex_ggwrRun (tol : ℝ) (ex : Exec 3) (hex : ex.Valid) :
    ∃ r, ggwrRun .Poisson tol 20 ⟨false, none⟩ ⟨100, false, .Boxcar⟩ (lineCoords 2) (ones 3) ![0, 1, 4] ex = .ok r ∧
      ∃ N q C, IsGeneralisedFit .Poisson tol 20 (ones 3) ![0, 1, 4]
        (fun i l => kernelFormula .Boxcar 100 (plane ((lineCoords 2).val i) ((lineCoords 2).val l))) r N q C := by
  have hb : (0 : ℝ) < 100 := by norm_num
  have hW : weightRows ⟨false, some (lineCoords 2, lineCoords 2)⟩ ⟨100, false, .Boxcar⟩ 3 3 = .ok (fun _ _ : Fin 3 => (1 : ℝ)) := by
    refine (weights_fixed hb).2 fun i => ⟨i.isLt, rfl, funext fun j => ?_⟩
    rw [← euclid_eq_plane, line_dist]
    simp only [kernelFormula]
    rw [if_pos]
    have hi : ((i : ℕ) : ℝ) ≤ 2 := by exact_mod_cast Nat.lt_succ_iff.1 i.isLt
    have hj : ((j : ℕ) : ℝ) ≤ 2 := by exact_mod_cast Nat.lt_succ_iff.1 j.isLt
    have hi0 : (0 : ℝ) ≤ (i : ℕ) := Nat.cast_nonneg _
    have hj0 : (0 : ℝ) ≤ (j : ℕ) := Nat.cast_nonneg _
    have : |((j : ℕ) : ℝ) - (i : ℕ)| ≤ 2 := by rw [abs_le]; constructor <;> linarith
    rw [abs_of_pos (by norm_num : (0 : ℝ) < 2)]
    linarith
  have h1 : ∀ i l : Fin 3, (0 : ℝ) ≤ (fun _ _ => 1 : Fin 3 → Fin 3 → ℝ) i l := fun _ _ => zero_le_one
  have hy : ∀ i : Fin 3, (0 : ℝ) ≤ (![0, 1, 4] : Fin 3 → ℝ) i := fun i => by fin_cases i <;> norm_num
  obtain ⟨c, conv, hc⟩ := C92_calibration_completes (F := .Poisson) tol 20 (x := ones 3) (y := ![0, 1, 4]) (W := fun _ _ => 1) hy h1
    fun i => ones_det (h1 i) ⟨0, one_pos⟩
  have hp := wtCalc_wt2 hc
  have hS : 0 < ∑ l, c.wt2 l := Finset.sum_pos (fun l _ => hp l) Finset.univ_nonempty
  choose lf e1 e2 e3 using fun i => ones_leverage (W := fun _ _ => 1) (st := c) h1 hp i ⟨0, one_pos⟩
  have htr : ∑ i, (lf i).si i ≠ (3 : ℕ) - 1 := by
    simp only [e2, one_mul]
    rw [← Finset.sum_div, div_self hS.ne']
    norm_num
  obtain ⟨r, hr, -⟩ := ggwrFit_poisson_total (by norm_num) hex hy ⟨0, 1, by norm_num⟩ (ones_det (fun _ => zero_le_one) ⟨0, one_pos⟩)
    (by norm_num) (by norm_num) hc lf e1 htr
  have h : ggwrRun .Poisson tol 20 ⟨false, none⟩ ⟨100, false, .Boxcar⟩ (lineCoords 2) (ones 3) ![0, 1, 4] ex = .ok r := by
    unfold ggwrRun
    rw [bindLocations_eq_ok.2 ⟨rfl, rfl, rfl⟩, Res.bind]
    simp only
    rw [hW]
    exact hr
  exact ⟨r, h, C108_fit .Poisson tol 20 (by norm_num) none .Boxcar 100 hb _ _ _ ex hex r h⟩

end Verif.Props

import Verif.Spec.IRLS
import Verif.Props.GLM

/-! The iterations of the generalised linear model (C107). -/

namespace Verif.Props
open Verif Verif.Model Verif.Spec Matrix

variable {n k : ℕ}

/-- The model's family `G` computes the family `F` on the responses `y`. -/
structure Computes (G : GlmFamily n) (F : ExpFamily) (y : Fin n → ℝ) : Prop where
  mean : ∀ e : Fin n → ℝ, G.linkinv e = .ok fun i => F.mean (e i)
  slope : ∀ e : Fin n → ℝ, G.muEta e = .ok fun i => F.slope (e i)
  var : ∀ m : Fin n → ℝ, G.variance m = fun i => F.var (m i)
  dev : ∀ e : Fin n → ℝ, G.devResids y (fun i => F.mean (e i)) (fun _ => 1) = .ok fun i => F.unitDev (y i) (F.mean (e i))

theorem glmLoop_trace {G : GlmFamily n} {F : ExpFamily} {x : Matrix (Fin n) (Fin k) ℝ} {y : Fin n → ℝ} (hF : Computes G F y) (fuel : ℕ) :
    ∀ (s : GlmState n k) (it : ℕ) (r : GlmState n k × ℕ × Bool), (s.mu = fun i => F.mean (s.eta i)) → s.dev = F.deviance y s.eta →
      glmLoop G x y fuel s it = .ok r →
      ∃ (N : ℕ) (b : ℕ → Fin k → ℝ) (eta : ℕ → Fin n → ℝ), r.2.1 = it + N ∧ N ≤ fuel ∧ (0 < fuel → 0 < N) ∧ eta 0 = s.eta ∧
        F.IsIRLS x y N b eta ∧ r.1.coef = (if N = 0 then s.coef else b N) ∧ r.1.eta = eta N ∧ (r.1.mu = fun i => F.mean (eta N i)) ∧
        r.1.dev = F.deviance y (eta N) ∧
        (∀ t, t + 1 < N → ¬ Settled (F.deviance y (eta (t + 1))) (F.deviance y (eta t))) ∧
        (r.2.2 = true → ∃ t, t + 1 = N ∧ Settled (F.deviance y (eta (t + 1))) (F.deviance y (eta t))) ∧
        (r.2.2 = false → N = fuel ∧ ∀ t, t + 1 = N → ¬ Settled (F.deviance y (eta (t + 1))) (F.deviance y (eta t))) := by
  induction fuel with
  | zero =>
    intro s it r hmu hdev h
    cases h
    exact ⟨0, fun _ => 0, fun _ => s.eta, rfl, le_rfl, id, rfl, fun t ht => absurd ht (Nat.not_lt_zero t), rfl, rfl, hmu, hdev,
      fun t ht => absurd ht (Nat.not_lt_zero _), fun h => (by cases h), fun _ => ⟨rfl, fun t ht => absurd ht (Nat.succ_ne_zero t)⟩⟩
  | succ fuel ih =>
    intro s it r hmu hdev h
    unfold glmLoop at h
    rw [Res.bind_eq_ok'] at h
    obtain ⟨s', hs, h⟩ := h
    obtain ⟨me, hme, hpos, hg, he, hm, d, hd, hdv⟩ := glmStep_ok hs
    have hw := (gwPredict_ok (fun i => (hpos i).2.2) hg).1
    rw [hF.slope, Res.ok.injEq] at hme
    subst hme
    rw [hF.mean, Res.ok.injEq] at hm
    have hdev' : s'.dev = F.deviance y s'.eta := by
      rw [← hm, hF.dev, Res.ok.injEq] at hd
      rw [hdv, ← hd]; rfl
    have hwls : IsWLS x (fun i => s.eta i + (y i - F.mean (s.eta i)) / F.slope (s.eta i))
        (fun i => F.slope (s.eta i) ^ 2 / F.var (F.mean (s.eta i))) s'.coef := by
      have := hw
      rw [hmu] at this
      simp only [hF.var, ← sq] at this
      exact this
    have hrow : ∀ i, s'.eta i = ∑ j, x i j * s'.coef j := fun i => by rw [he]; rfl
    by_cases hc : glmConverged s'.dev s.dev
    · rw [if_pos hc] at h
      cases h
      refine ⟨1, fun _ => s'.coef, fun t => if t = 0 then s.eta else s'.eta, rfl, by omega, fun _ => one_pos, rfl, ?_, rfl, rfl, hm.symm, hdev', ?_, ?_, ?_⟩
      · intro t ht
        have : t = 0 := by omega
        subst this
        exact ⟨hwls, hrow⟩
      · intro t ht; omega
      · intro _
        refine ⟨0, rfl, ?_⟩
        have := hc
        unfold glmConverged at this
        rw [hdev', hdev] at this
        exact this
      · intro h; cases h
    · rw [if_neg hc] at h
      have hns : ¬ Settled (F.deviance y s'.eta) (F.deviance y s.eta) := by
        rw [← hdev', ← hdev]; exact hc
      obtain ⟨N, b, eta, h1, h2, h3, h4, h5, h6, h7, h8, h9, h10, h11, h12⟩ := ih s' (it + 1) r hm.symm hdev' h
      refine ⟨N + 1, fun t => if t = 1 then s'.coef else b (t - 1), fun t => if t = 0 then s.eta else eta (t - 1), by omega, by omega,
        fun _ => by omega, rfl, ?_, ?_, by simpa using h7, by simpa using h8, by simpa using h9, ?_, ?_, ?_⟩
      · intro t ht
        rcases t with - | t
        · refine ⟨hwls, fun i => ?_⟩
          simp only [zero_add, one_ne_zero, if_false, if_true, Nat.sub_self, h4]
          exact hrow i
        · have := h5 t (by omega)
          simp only [Nat.add_eq_zero_iff, one_ne_zero, and_false, if_false, Nat.add_sub_cancel]
          rw [if_neg (by omega)]
          exact this
      · rw [if_neg (Nat.succ_ne_zero N), h6]
        by_cases hN : N = 0
        · simp [hN]
        · rw [if_neg hN]
          simp only [Nat.add_sub_cancel]
          rw [if_neg (by omega)]
      · intro t ht
        rcases t with - | t
        · simp only [zero_add, one_ne_zero, if_false, if_true, Nat.sub_self, h4]; exact hns
        · simp only [Nat.add_eq_zero_iff, one_ne_zero, and_false, if_false, Nat.add_sub_cancel]
          exact h10 t (by omega)
      · intro hr
        obtain ⟨t, ht, hset⟩ := h11 hr
        refine ⟨t + 1, by omega, ?_⟩
        simp only [Nat.add_eq_zero_iff, one_ne_zero, and_false, if_false, Nat.add_sub_cancel]
        exact hset
      · intro hr
        obtain ⟨ha, hb⟩ := h12 hr
        refine ⟨by omega, fun t ht => ?_⟩
        rcases t with - | t
        · simp only [zero_add, one_ne_zero, if_false, if_true, Nat.sub_self, h4]; exact hns
        · simp only [Nat.add_eq_zero_iff, one_ne_zero, and_false, if_false, Nat.add_sub_cancel]
          exact hb t (by omega)

theorem fdiv_inv {a b v : ℝ} (h : fdiv a b = .ok v) : b ≠ 0 ∧ v = a / b := by
  unfold fdiv at h
  by_cases hb : b = 0
  · rw [if_pos hb] at h; cases h
  · rw [if_neg hb] at h; exact ⟨hb, (Res.ok.inj h).symm⟩

/-- What a fit reports, in terms of its iterations. -/
def IsGlmFit (F : ExpFamily) (x : Matrix (Fin n) (Fin k) ℝ) (y eta0 : Fin n → ℝ) (s : GlmState n k) (it : ℕ) (conv : Bool) : Prop :=
  ∃ (b : ℕ → Fin k → ℝ) (eta : ℕ → Fin n → ℝ), eta 0 = eta0 ∧ F.IsIRLS x y it b eta ∧ 1 ≤ it ∧ it ≤ 25 ∧ s.coef = b it ∧
    (∀ i, s.mu i = F.mean (∑ j, x i j * s.coef j)) ∧ s.dev = F.deviance y (eta it) ∧
    (∀ t, 1 ≤ t → t < it → ¬ Settled (F.deviance y (eta t)) (F.deviance y (eta (t - 1)))) ∧
    (conv = true ↔ Settled (F.deviance y (eta it)) (F.deviance y (eta (it - 1)))) ∧ (conv = false → it = 25)

theorem glmFit_trace {G : GlmFamily n} {F : ExpFamily} {x : Matrix (Fin n) (Fin k) ℝ} {y eta0 : Fin n → ℝ} (hF : Computes G F y)
    (h0 : G.linkfun (G.muStart y) = .ok eta0) {s it conv} (h : glmFit G x y = .ok (s, it, conv)) : IsGlmFit F x y eta0 s it conv := by
  unfold glmFit at h
  rw [h0, Res.bind, hF.mean, Res.bind, hF.dev, Res.bind] at h
  obtain ⟨N, b, eta, h1, h2, h3, h4, h5, h6, h7, h8, h9, h10, h11, h12⟩ := glmLoop_trace hF 25 _ _ _ rfl rfl h
  simp only [zero_add] at h1 h4
  have hN := h3 (by norm_num)
  rw [if_neg hN.ne'] at h6
  subst it
  obtain ⟨M, rfl⟩ : ∃ M, N = M + 1 := ⟨N - 1, by omega⟩
  have hlast := (h5 M (by omega)).2
  refine ⟨b, eta, h4, h5, by omega, h2, h6, fun i => ?_, h9, fun t ht1 ht2 => ?_, ⟨fun hc => ?_, fun hs => ?_⟩, fun hc => (h12 hc).1⟩
  · simp only at h8 h6
    rw [h8, h6, ← hlast i]
  · obtain ⟨u, rfl⟩ : ∃ u, t = u + 1 := ⟨t - 1, by omega⟩
    exact h10 u ht2
  · obtain ⟨t, ht, hset⟩ := h11 hc
    have : t = M := by omega
    subst this
    exact hset
  · by_contra hcon
    have hf : conv = false := by simpa using hcon
    exact (h12 hf).2 M rfl hs

theorem poisson_computes (hn : n ≠ 0) (y : Fin n → ℝ) (hy : ∀ i, 0 ≤ y i) : Computes (glmPoisson n) poissonFamily y := by
  have hlink : ∀ e : Fin n → ℝ, poissonLinkinv e = .ok fun i => max (Real.exp (e i)) (2.220446 / 10 ^ 16) := by
    intro e
    obtain ⟨mu, h, -⟩ := C46_poisson_range hn e
    rw [h]
    congr 1
    funext i
    exact poissonLinkinv_ok h i
  refine ⟨hlink, fun e => ?_, fun m => rfl, fun e => ?_⟩
  · change poissonMuEta e = _
    rw [poissonMuEta_eq]; exact hlink e
  · change poissonDevResids y _ _ = _
    rw [C46_poisson_deviance hn y (fun i => poissonFamily.mean (e i)) _ hy fun i => lt_of_lt_of_le (Real.exp_pos (e i)) (le_max_left _ _)]
    simp only [one_mul]
    rfl

theorem logistic_computes (y : Fin n → ℝ) (hy : ∀ i, 0 ≤ y i ∧ y i ≤ 1) : Computes (glmBinomial n) logisticFamily y := by
  have e1 : ∀ e : ℝ, Real.exp e / (1 + Real.exp e) = 1 / (1 + Real.exp (-e)) := by
    intro e
    have := Real.exp_pos e
    rw [Real.exp_neg]
    field_simp
    ring
  refine ⟨fun e => ?_, fun e => ?_, fun m => rfl, fun e => ?_⟩
  · change Res.ok (binomialLinkinv e) = _
    congr 1
    funext i
    exact e1 _
  · change Res.ok (binomialMuEta e) = _
    congr 1
    funext i
    simp only [binomialMuEta, logisticFamily, ← e1]
    have := Real.exp_pos (e i)
    field_simp
    ring
  · change binomialDevResids y _ _ = _
    rw [C46_binomial_deviance y _ _ hy fun i => ?_]
    · simp only [one_mul]; rfl
    · have := C46_binomial_range e i
      simp only [logisticFamily, ← e1]
      exact this

/-- C107 (Poisson): a fit to counts starts at the logarithm of the counts plus one tenth and performs reweighted least squares iterations until the deviance
settles, at most 25; coefficients, means and deviance reported are those of the last iteration. -/
theorem C107_poisson_trace (hn : n ≠ 0) (x : Matrix (Fin n) (Fin k) ℝ) (y : Fin n → ℝ) (hy : ∀ i, 0 ≤ y i) (s : GlmState n k) (it : ℕ) (conv : Bool)
    (h : glmFit (glmPoisson n) x y = .ok (s, it, conv)) :
    IsGlmFit poissonFamily x y (fun i => Real.log (y i + 1 / 10)) s it conv := by
  refine glmFit_trace (poisson_computes hn y hy) ?_ h
  change poissonLinkfun (poissonMuStart y) = _
  unfold poissonLinkfun poissonMuStart
  rw [Res.tabulate_eq_ok]
  intro i
  have := hy i
  rw [flog, if_neg (by linarith)]

/-- C107 (logistic): a fit to proportions starts at the logit of the mean of the proportion and one half. -/
theorem C107_logistic_trace (x : Matrix (Fin n) (Fin k) ℝ) (y : Fin n → ℝ) (hy : ∀ i, 0 ≤ y i ∧ y i ≤ 1) (s : GlmState n k) (it : ℕ) (conv : Bool)
    (h : glmFit (glmBinomial n) x y = .ok (s, it, conv)) :
    IsGlmFit logisticFamily x y (fun i => Real.log ((y i + 1 / 2) / 2 / (1 - (y i + 1 / 2) / 2))) s it conv := by
  refine glmFit_trace (logistic_computes y hy) ?_ h
  change binomialLinkfun (binomialMuStart y fun _ => 1) = _
  unfold binomialLinkfun binomialMuStart
  rw [Res.tabulate_eq_ok]
  intro i
  obtain ⟨h1, h2⟩ := hy i
  have e : (1 * y i + 1 / 2) / (1 + 1 : ℝ) = (y i + 1 / 2) / 2 := by norm_num
  rw [e, fdiv_ne (by linarith), Res.bind, flog_pos (div_pos (by linarith) (by linarith))]

/-- C107 (diagnostics, Poisson): the diagnostics of the global model are the deviance of the fit, the deviance of the mean count, their pseudo coefficient of
determination, and the deviance plus twice the number of coefficients. -/
theorem C107_poisson_diagnostics (hn : n ≠ 0) (x : Matrix (Fin n) (Fin k) ℝ) (y : Fin n → ℝ) (hy : ∀ i, 0 ≤ y i) (hy0 : ∃ i, 0 < y i) (d : GlmDiag)
    (h : calGlm (glmPoisson n) x y = .ok d) :
    (∃ s it conv, glmFit (glmPoisson n) x y = .ok (s, it, conv) ∧ d.dev = s.dev) ∧ d.nullDev = ∑ i, poissonUnitDev (y i) ((∑ l, y l) / n) ∧
    d.aic = d.dev + 2 * k ∧ d.nullDev ≠ 0 ∧ d.rSquare = 1 - d.dev / d.nullDev := by
  unfold calGlm at h
  rw [Res.bind_eq_ok'] at h
  obtain ⟨r, hr, h⟩ := h
  rw [Res.bind_eq_ok'] at h
  obtain ⟨nd, hnd, h⟩ := h
  rw [Res.bind_eq_ok'] at h
  obtain ⟨q, hq, h⟩ := h
  rw [Res.bind_eq_ok'] at h
  obtain ⟨c, -, h⟩ := h
  cases h
  have hn' : (0 : ℝ) < n := by exact_mod_cast Nat.pos_of_ne_zero hn
  have hm : 0 < (∑ l, y l) / (n : ℝ) := by
    obtain ⟨i, hi⟩ := hy0
    exact div_pos (Finset.sum_pos' (fun i _ => hy i) ⟨i, Finset.mem_univ i, hi⟩) hn'
  unfold glmNullDev at hnd
  rw [fdiv_ne hn'.ne', Res.bind] at hnd
  change (poissonDevResids y _ _).bind _ = _ at hnd
  rw [C46_poisson_deviance hn y _ _ hy fun _ => hm, Res.bind, Res.ok.injEq] at hnd
  simp only [one_mul] at hnd
  obtain ⟨hq0, hq1⟩ := fdiv_inv hq
  exact ⟨⟨r.1, r.2.1, r.2.2, hr, rfl⟩, hnd.symm, rfl, hq0, by rw [hq1]⟩

/-- C107 (diagnostics, logistic). -/
theorem C107_logistic_diagnostics (x : Matrix (Fin n) (Fin k) ℝ) (y : Fin n → ℝ) (hy : ∀ i, 0 ≤ y i ∧ y i ≤ 1) (h0 : ∃ i, 0 < y i) (h1 : ∃ i, y i < 1)
    (d : GlmDiag) (h : calGlm (glmBinomial n) x y = .ok d) :
    (∃ s it conv, glmFit (glmBinomial n) x y = .ok (s, it, conv) ∧ d.dev = s.dev) ∧ d.nullDev = ∑ i, binomialUnitDev (y i) ((∑ l, y l) / n) ∧
    d.aic = d.dev + 2 * k ∧ d.nullDev ≠ 0 ∧ d.rSquare = 1 - d.dev / d.nullDev := by
  unfold calGlm at h
  rw [Res.bind_eq_ok'] at h
  obtain ⟨r, hr, h⟩ := h
  rw [Res.bind_eq_ok'] at h
  obtain ⟨nd, hnd, h⟩ := h
  rw [Res.bind_eq_ok'] at h
  obtain ⟨q, hq, h⟩ := h
  rw [Res.bind_eq_ok'] at h
  obtain ⟨c, -, h⟩ := h
  cases h
  have hn' : (0 : ℝ) < n := by
    obtain ⟨i, -⟩ := h0
    exact_mod_cast i.pos
  have hm : 0 < (∑ l, y l) / (n : ℝ) ∧ (∑ l, y l) / (n : ℝ) < 1 := by
    obtain ⟨i, hi⟩ := h0
    obtain ⟨i', hi'⟩ := h1
    refine ⟨div_pos (Finset.sum_pos' (fun i _ => (hy i).1) ⟨i, Finset.mem_univ i, hi⟩) hn', ?_⟩
    rw [div_lt_one hn']
    have := Finset.sum_lt_sum (s := Finset.univ) (f := y) (g := fun _ => (1 : ℝ)) (fun i _ => (hy i).2) ⟨i', Finset.mem_univ i', hi'⟩
    simpa using this
  unfold glmNullDev at hnd
  rw [fdiv_ne hn'.ne', Res.bind] at hnd
  change (binomialDevResids y _ _).bind _ = _ at hnd
  rw [C46_binomial_deviance y _ _ hy fun _ => hm, Res.bind, Res.ok.injEq] at hnd
  simp only [one_mul] at hnd
  obtain ⟨hq0, hq1⟩ := fdiv_inv hq
  exact ⟨⟨r.1, r.2.1, r.2.2, hr, rfl⟩, hnd.symm, rfl, hq0, by rw [hq1]⟩

/-- Fits to which C107 applies. -/
example : ∃ s it conv, IsGlmFit poissonFamily exX ![0, 2, 7] (fun i => Real.log (![0, 2, 7] i + 1 / 10)) s it conv := by
  have hy : ∀ i, 0 ≤ (![0, 2, 7] : Fin 3 → ℝ) i := by intro i; fin_cases i <;> norm_num
  obtain ⟨s, it, conv, h⟩ := C46_poisson_fit_completes (n := 3) (by norm_num) exX ![0, 2, 7] hy (exX_determined _ fun _ => one_pos)
  exact ⟨s, it, conv, C107_poisson_trace (by norm_num) exX _ hy s it conv h⟩

end Verif.Props

import Verif.Props.GGWRRunGeneral
import Verif.Props.ModesAgreeMore
import Verif.Props.ReorderingClasses
import Verif.Props.ReorderingMore

/-! # C145: the order of the observations in generalised regression -/

namespace Verif.Props
open Verif Verif.Model Verif.Spec Matrix Classical

variable {n k : ℕ}

/-! ### The global model -/

theorem tabulate_comp {β : Type} (σ : Equiv.Perm (Fin n)) {f : Fin n → Res β} {v : Fin n → β} (h : Res.tabulate n f = .ok v) :
    Res.tabulate n (fun i => f (σ i)) = .ok (v ∘ σ) := tabulate_perm σ (fun _ => rfl) h

theorem gwPredict_perm (σ : Equiv.Perm (Fin n)) (x : Matrix (Fin n) (Fin k) ℝ) (y w : Fin n → ℝ) :
    gwPredict (permRows σ x) (y ∘ σ) (w ∘ σ) = gwPredict x y w := by
  unfold gwPredict
  have h : xtw (permRows σ x) (w ∘ σ) *ᵥ (y ∘ σ) = xtw x w *ᵥ y := by
    funext j
    exact Equiv.sum_comp σ fun l => xtw x w j l * y l
  rw [perm_xtwx, h]

/-- A family whose functions treat every observation alike. -/
structure Uniform (G : GlmFamily n) : Prop where
  muStart : ∀ (σ : Equiv.Perm (Fin n)) y, G.muStart (y ∘ σ) = G.muStart y ∘ σ
  linkfun : ∀ (σ : Equiv.Perm (Fin n)) v r, G.linkfun v = .ok r → G.linkfun (v ∘ σ) = .ok (r ∘ σ)
  linkinv : ∀ (σ : Equiv.Perm (Fin n)) v r, G.linkinv v = .ok r → G.linkinv (v ∘ σ) = .ok (r ∘ σ)
  muEta : ∀ (σ : Equiv.Perm (Fin n)) v r, G.muEta v = .ok r → G.muEta (v ∘ σ) = .ok (r ∘ σ)
  variance : ∀ (σ : Equiv.Perm (Fin n)) v, G.variance (v ∘ σ) = G.variance v ∘ σ
  devResids : ∀ (σ : Equiv.Perm (Fin n)) y v r, (G.devResids y v fun _ => 1) = .ok r → (G.devResids (y ∘ σ) (v ∘ σ) fun _ => 1) = .ok (r ∘ σ)

theorem linkinv_perm (σ : Equiv.Perm (Fin n)) {v r : Fin n → ℝ} (h : poissonLinkinv v = .ok r) : poissonLinkinv (v ∘ σ) = .ok (r ∘ σ) := by
  unfold poissonLinkinv at h ⊢
  by_cases h0 : n = 0
  · rw [if_pos h0] at h; cases h
  rw [if_neg h0] at h ⊢
  by_cases h1 : ∀ i, Real.exp (v i) > poisEps
  · rw [if_pos h1] at h
    rw [if_pos (show ∀ i, Real.exp ((v ∘ σ) i) > poisEps from fun i => h1 (σ i)), ← Res.ok.inj h]; rfl
  · rw [if_neg h1] at h
    rw [if_neg (show ¬ ∀ i, Real.exp ((v ∘ σ) i) > poisEps from fun h2 => h1 fun i => by simpa using h2 (σ.symm i)), ← Res.ok.inj h]; rfl

theorem poissonDev_perm (σ : Equiv.Perm (Fin n)) {y v r : Fin n → ℝ} (h : poissonDevResids y v (fun _ => 1) = .ok r) :
    poissonDevResids (y ∘ σ) (v ∘ σ) (fun _ => 1) = .ok (r ∘ σ) := by
  unfold poissonDevResids at h ⊢
  by_cases h0 : n = 0
  · rw [if_pos h0] at h; cases h
  rw [if_neg h0] at h ⊢
  by_cases h1 : ∀ i, 0 < y i
  · rw [if_pos h1] at h
    rw [if_pos (show ∀ i, 0 < (y ∘ σ) i from fun i => h1 (σ i))]
    obtain ⟨t, ht, h⟩ := Res.bind_eq_ok'.1 h
    refine Res.bind_eq_ok'.2 ⟨_, tabulate_comp σ ht, ?_⟩
    rw [← Res.ok.inj h]; rfl
  · rw [if_neg h1] at h
    rw [if_neg (show ¬ ∀ i, 0 < (y ∘ σ) i from fun h2 => h1 fun i => by simpa using h2 (σ.symm i))]
    obtain ⟨t, ht, h⟩ := Res.bind_eq_ok'.1 h
    refine Res.bind_eq_ok'.2 ⟨_, tabulate_comp σ ht, ?_⟩
    rw [← Res.ok.inj h]; rfl

theorem uniform_glm (F : Family) : Uniform (glmOf n F) := by
  cases F
  · exact ⟨fun _ _ => rfl, fun σ _ _ h => tabulate_comp σ h, fun σ _ _ h => linkinv_perm σ h, fun σ _ _ h => linkinv_perm σ h, fun _ _ => rfl,
      fun σ _ _ _ h => poissonDev_perm σ h⟩
  · exact ⟨fun _ _ => rfl, fun σ _ _ h => tabulate_comp σ h, fun σ _ _ h => by cases h; rfl, fun σ _ _ h => by cases h; rfl, fun _ _ => rfl,
      fun σ _ _ _ h => tabulate_comp σ h⟩

/-- The state of the global fit for the reordered observations. -/
def permGlm (σ : Equiv.Perm (Fin n)) (s : GlmState n k) : GlmState n k := ⟨s.coef, s.eta ∘ σ, s.mu ∘ σ, s.dev⟩

theorem mulVec_perm (σ : Equiv.Perm (Fin n)) (x : Matrix (Fin n) (Fin k) ℝ) (b : Fin k → ℝ) : permRows σ x *ᵥ b = (x *ᵥ b) ∘ σ := rfl

theorem sum_perm (σ : Equiv.Perm (Fin n)) (d : Fin n → ℝ) : ∑ i, (d ∘ σ) i = ∑ i, d i := Equiv.sum_comp σ d

theorem glmStep_perm {G : GlmFamily n} (hG : Uniform G) (σ : Equiv.Perm (Fin n)) {x : Matrix (Fin n) (Fin k) ℝ} {y eta mu : Fin n → ℝ}
    {s : GlmState n k} (h : glmStep G x y eta mu = .ok s) : glmStep G (permRows σ x) (y ∘ σ) (eta ∘ σ) (mu ∘ σ) = .ok (permGlm σ s) := by
  unfold glmStep at h ⊢
  obtain ⟨me, h1, h⟩ := Res.bind_eq_ok'.1 h
  obtain ⟨z, h2, h⟩ := Res.bind_eq_ok'.1 h
  obtain ⟨w, h3, h⟩ := Res.bind_eq_ok'.1 h
  obtain ⟨coef, h4, h⟩ := Res.bind_eq_ok'.1 h
  obtain ⟨mu', h5, h⟩ := Res.bind_eq_ok'.1 h
  obtain ⟨d, h6, h⟩ := Res.bind_eq_ok'.1 h
  refine Res.bind_eq_ok'.2 ⟨_, hG.muEta σ _ _ h1, Res.bind_eq_ok'.2 ⟨_, tabulate_comp σ h2, Res.bind_eq_ok'.2 ⟨w ∘ σ, ?_, Res.bind_eq_ok'.2 ⟨coef, ?_,
    Res.bind_eq_ok'.2 ⟨mu' ∘ σ, ?_, Res.bind_eq_ok'.2 ⟨d ∘ σ, hG.devResids σ _ _ _ h6, ?_⟩⟩⟩⟩⟩⟩
  · rw [hG.variance]
    exact tabulate_comp σ h3
  · rw [← h4]
    exact gwPredict_perm σ (Matrix.of fun i j => x i j * w i) (fun i => z i * w i) fun _ => 1
  · rw [mulVec_perm]
    exact hG.linkinv σ _ _ h5
  · rw [← Res.ok.inj h, sum_perm, mulVec_perm]; rfl

theorem glmLoop_perm {G : GlmFamily n} (hG : Uniform G) (σ : Equiv.Perm (Fin n)) {x : Matrix (Fin n) (Fin k) ℝ} {y : Fin n → ℝ} (fuel : ℕ) :
    ∀ (s : GlmState n k) (it : ℕ) (r : GlmState n k × ℕ × Bool), glmLoop G x y fuel s it = .ok r →
      glmLoop G (permRows σ x) (y ∘ σ) fuel (permGlm σ s) it = .ok (permGlm σ r.1, r.2) := by
  induction fuel with
  | zero => intro s it r h; cases h; rfl
  | succ f ih =>
    intro s it r h
    unfold glmLoop at h ⊢
    obtain ⟨s', h1, h⟩ := Res.bind_eq_ok'.1 h
    refine Res.bind_eq_ok'.2 ⟨_, glmStep_perm hG σ h1, ?_⟩
    by_cases hc : glmConverged s'.dev s.dev
    · rw [if_pos hc] at h
      rw [if_pos (show glmConverged (permGlm σ s').dev (permGlm σ s).dev from hc), ← Res.ok.inj h]
    · rw [if_neg hc] at h
      rw [if_neg (show ¬ glmConverged (permGlm σ s').dev (permGlm σ s).dev from hc)]
      exact ih _ _ _ h

theorem calGlm_perm (F : Family) (σ : Equiv.Perm (Fin n)) {x : Matrix (Fin n) (Fin k) ℝ} {y : Fin n → ℝ} {g : GlmDiag}
    (h : calGlm (glmOf n F) x y = .ok g) : calGlm (glmOf n F) (permRows σ x) (y ∘ σ) = .ok g := by
  have hG := uniform_glm (n := n) F
  unfold calGlm at h ⊢
  obtain ⟨r, h1, h⟩ := Res.bind_eq_ok'.1 h
  obtain ⟨nd, h2, h⟩ := Res.bind_eq_ok'.1 h
  refine Res.bind_eq_ok'.2 ⟨(permGlm σ r.1, r.2), ?_, Res.bind_eq_ok'.2 ⟨nd, ?_, h⟩⟩
  · unfold glmFit at h1 ⊢
    obtain ⟨eta, e1, h1⟩ := Res.bind_eq_ok'.1 h1
    obtain ⟨mu, e2, h1⟩ := Res.bind_eq_ok'.1 h1
    obtain ⟨d, e3, h1⟩ := Res.bind_eq_ok'.1 h1
    refine Res.bind_eq_ok'.2 ⟨eta ∘ σ, by rw [hG.muStart]; exact hG.linkfun σ _ _ e1, Res.bind_eq_ok'.2 ⟨_, hG.linkinv σ _ _ e2,
      Res.bind_eq_ok'.2 ⟨_, hG.devResids σ _ _ _ e3, ?_⟩⟩⟩
    rw [sum_perm]
    exact glmLoop_perm hG σ 25 _ 0 r h1
  · unfold glmNullDev at h2 ⊢
    obtain ⟨m, e1, h2⟩ := Res.bind_eq_ok'.1 h2
    obtain ⟨d, e2, h2⟩ := Res.bind_eq_ok'.1 h2
    refine Res.bind_eq_ok'.2 ⟨m, by rw [sum_perm]; exact e1, Res.bind_eq_ok'.2 ⟨d ∘ σ, hG.devResids σ y (fun _ => m) d e2, ?_⟩⟩
    rw [sum_perm]
    exact h2

/-! ### The calibration -/

/-- The state of the calibration for the reordered observations. -/
def permCal (σ : Equiv.Perm (Fin n)) (s : WtState n k) : WtState n k :=
  ⟨s.nu ∘ σ, s.mu ∘ σ, s.wt2 ∘ σ, s.yAdj ∘ σ, permRows σ s.betas, s.llik⟩

theorem locLLik_perm (F : Family) (σ : Equiv.Perm (Fin n)) {y mu : Fin n → ℝ} {v : ℝ} (h : locLLik F y mu = .ok v) :
    locLLik F (y ∘ σ) (mu ∘ σ) = .ok v := by
  cases F <;>
  · obtain ⟨t, h1, h⟩ := Res.bind_eq_ok'.1 h
    refine Res.bind_eq_ok'.2 ⟨t ∘ σ, tabulate_comp σ h1, ?_⟩
    rw [sum_perm]; exact h

theorem wtStep_perm (F : Family) (σ : Equiv.Perm (Fin n)) {x : Matrix (Fin n) (Fin k) ℝ} {y : Fin n → ℝ} {W : Fin n → Fin n → ℝ} {s s' : WtState n k}
    (h : wtStep F x y W s = .ok s') : wtStep F (permRows σ x) (y ∘ σ) (permW σ W) (permCal σ s) = .ok (permCal σ s') := by
  unfold wtStep at h ⊢
  obtain ⟨yAdj, h1, h⟩ := Res.bind_eq_ok'.1 h
  obtain ⟨betas, h2, h⟩ := Res.bind_eq_ok'.1 h
  obtain ⟨ll, h3, h⟩ := Res.bind_eq_ok'.1 h
  refine Res.bind_eq_ok'.2 ⟨_, tabulate_comp σ h1, Res.bind_eq_ok'.2 ⟨betas ∘ σ, tabulate_perm σ (fun i => ?_) h2, Res.bind_eq_ok'.2 ⟨ll, ?_, ?_⟩⟩⟩
  · exact gwPredict_perm σ x yAdj fun l => W (σ i) l * s.wt2 l
  · exact locLLik_perm F σ h3
  · rw [← Res.ok.inj h]; rfl

theorem wtLoop_perm (F : Family) (tol : ℝ) (σ : Equiv.Perm (Fin n)) {x : Matrix (Fin n) (Fin k) ℝ} {y : Fin n → ℝ} {W : Fin n → Fin n → ℝ} (fuel : ℕ) :
    ∀ (s : WtState n k) (r : WtState n k × Bool), wtLoop F tol x y W fuel s = .ok r →
      wtLoop F tol (permRows σ x) (y ∘ σ) (permW σ W) fuel (permCal σ s) = .ok (permCal σ r.1, r.2) := by
  induction fuel with
  | zero => intro s r h; cases h; rfl
  | succ f ih =>
    intro s r h
    unfold wtLoop at h ⊢
    obtain ⟨s', h1, h⟩ := Res.bind_eq_ok'.1 h
    refine Res.bind_eq_ok'.2 ⟨_, wtStep_perm F σ h1, ?_⟩
    by_cases hc : wtConverged tol s.llik s'.llik
    · rw [if_pos hc] at h
      rw [if_pos (show wtConverged tol (permCal σ s).llik (permCal σ s').llik from hc), ← Res.ok.inj h]
    · rw [if_neg hc] at h
      rw [if_neg (show ¬ wtConverged tol (permCal σ s).llik (permCal σ s').llik from hc)]
      exact ih _ _ h

theorem wtCalc_perm (F : Family) (tol : ℝ) (m : ℕ) (σ : Equiv.Perm (Fin n)) {x : Matrix (Fin n) (Fin k) ℝ} {y : Fin n → ℝ} {W : Fin n → Fin n → ℝ}
    {r : WtState n k × Bool} (h : wtCalc F tol m x y W = .ok r) :
    wtCalc F tol m (permRows σ x) (y ∘ σ) (permW σ W) = .ok (permCal σ r.1, r.2) := by
  unfold wtCalc at h ⊢
  obtain ⟨nu, h1, h⟩ := Res.bind_eq_ok'.1 h
  refine Res.bind_eq_ok'.2 ⟨nu ∘ σ, ?_, ?_⟩
  · cases F
    · exact tabulate_comp σ h1
    · cases h1; rfl
  · have := wtLoop_perm F tol σ m _ r h
    have e : permCal σ (⟨nu, locMu0 F y, fun _ => 1, 0, 0, 0⟩ : WtState n k) = ⟨nu ∘ σ, locMu0 F (y ∘ σ), fun _ => 1, 0, 0, 0⟩ := by
      cases F <;> rfl
    rw [e] at this
    exact this

/-! ### Fits -/

/-- A local fit with its rows in the new order. -/
def permLocal (σ : Equiv.Perm (Fin n)) (f : LocalFit n k) : LocalFit n k := { beta := f.beta, ci := fun j l => f.ci j (σ l), si := f.si ∘ σ }

theorem localFitInv_perm (σ : Equiv.Perm (Fin n)) {x : Matrix (Fin n) (Fin k) ℝ} {y w : Fin n → ℝ} {xi : Fin k → ℝ} {f : LocalFit n k}
    (h : localFitInv x y w xi = .ok f) : localFitInv (permRows σ x) (y ∘ σ) (w ∘ σ) xi = .ok (permLocal σ f) := by
  unfold localFitInv at h ⊢
  have hy : xtw (permRows σ x) (w ∘ σ) *ᵥ (y ∘ σ) = xtw x w *ᵥ y := by
    funext j
    exact Equiv.sum_comp σ fun l => xtw x w j l * y l
  rw [perm_xtwx, hy]
  obtain ⟨inv, h1, h⟩ := Res.bind_eq_ok'.1 h
  refine Res.bind_eq_ok'.2 ⟨inv, h1, ?_⟩
  rw [← Res.ok.inj h]
  rfl

theorem ggwrLoc_perm (σ : Equiv.Perm (Fin n)) {x : Matrix (Fin n) (Fin k) ℝ} {W : Fin n → Fin n → ℝ} {st : WtState n k} {i : Fin n}
    {r : LocalFit n k × (Fin k → ℝ)} (h : ggwrLoc x W st (σ i) = .ok r) :
    ggwrLoc (permRows σ x) (permW σ W) (permCal σ st) i = .ok (permLocal σ r.1, r.2) := by
  unfold ggwrLoc at h ⊢
  obtain ⟨lf, h1, h⟩ := Res.bind_eq_ok'.1 h
  obtain ⟨iw, h2, h⟩ := Res.bind_eq_ok'.1 h
  obtain ⟨se, h3, h⟩ := Res.bind_eq_ok'.1 h
  have e1 : localFitInv (permRows σ x) (permCal σ st).yAdj (fun l => permW σ W i l * (permCal σ st).wt2 l) (permRows σ x i) = .ok (permLocal σ lf) :=
    localFitInv_perm σ (x := x) (y := st.yAdj) (w := fun l => W (σ i) l * st.wt2 l) (xi := x (σ i)) h1
  refine Res.bind_eq_ok'.2 ⟨permLocal σ lf, e1, ?_⟩
  refine Res.bind_eq_ok'.2 ⟨iw ∘ σ, tabulate_comp σ h2, ?_⟩
  refine Res.bind_eq_ok'.2 ⟨se, ?_, ?_⟩
  · rw [← h3]
    congr 1
    funext j
    exact congrArg fsqrt (Equiv.sum_comp σ fun l => lf.ci j l * iw l * lf.ci j l)
  · rw [← Res.ok.inj h]

theorem shatRow_perm (σ : Equiv.Perm (Fin n)) (i : Fin n) (f : LocalFit n k) : shatRow i (permLocal σ f) = shatRow (σ i) f := by
  unfold shatRow permLocal
  simp only [Function.comp]
  rw [Equiv.sum_comp σ fun l => f.si l * f.si l]

theorem gwDev_perm (F : Family) (σ : Equiv.Perm (Fin n)) {x : Matrix (Fin n) (Fin k) ℝ} {y : Fin n → ℝ} {st : WtState n k}
    {B : Matrix (Fin n) (Fin k) ℝ} {v : ℝ} (h : gwDev F x y st B = .ok v) : gwDev F (permRows σ x) (y ∘ σ) (permCal σ st) (permRows σ B) = .ok v := by
  cases F <;>
  · obtain ⟨t, h1, h⟩ := Res.bind_eq_ok'.1 h
    refine Res.bind_eq_ok'.2 ⟨t ∘ σ, tabulate_comp σ h1, ?_⟩
    rw [sum_perm]; exact h

/-- The report of the reordered observations: everything that belongs to an observation has moved with it, the rest is the same. -/
structure GeneralisedReordered (σ : Equiv.Perm (Fin n)) (r r' : GgwrResult n k) : Prop where
  betas : ∀ i, r'.betas i = r.betas (σ i)
  se : ∀ i, r'.se i = r.se (σ i)
  trace : r'.shat = r.shat
  aic : r'.aic = r.aic
  aicc : r'.aicc = r.aicc
  dev : r'.dev = r.dev
  rSquare : r'.rSquare = r.rSquare
  global : r'.glm = r.glm
  working : ∀ i, r'.cal.yAdj i = r.cal.yAdj (σ i) ∧ r'.cal.wt2 i = r.cal.wt2 (σ i) ∧ r'.cal.mu i = r.cal.mu (σ i)
  llik : r'.cal.llik = r.cal.llik
  converged : r'.converged = r.converged

theorem ggwrFit_perm (F : Family) (tol : ℝ) (m : ℕ) (σ : Equiv.Perm (Fin n)) {x : Matrix (Fin n) (Fin k) ℝ} {y : Fin n → ℝ} {W : Fin n → Fin n → ℝ}
    {ex ex' : Exec n} (hex : ex.Valid) (hex' : ex'.Valid) {r : GgwrResult n k} (h : ggwrFit F tol m x y W ex = .ok r) :
    ∃ r', ggwrFit F tol m (permRows σ x) (y ∘ σ) (permW σ W) ex' = .ok r' ∧ GeneralisedReordered σ r r' := by
  unfold ggwrFit at h
  obtain ⟨glm, h1, h⟩ := Res.bind_eq_ok'.1 h
  obtain ⟨c, h2, h⟩ := Res.bind_eq_ok'.1 h
  obtain ⟨a, h3, h⟩ := Res.bind_eq_ok'.1 h
  obtain ⟨dev, h4, h⟩ := Res.bind_eq_ok'.1 h
  obtain ⟨corr, h5, h⟩ := Res.bind_eq_ok'.1 h
  obtain ⟨q, h6, h⟩ := Res.bind_eq_ok'.1 h
  have hwt := wtCalc_wt2 (s := c.1) (c := c.2) h2
  have hall : ∀ i, ∃ r, ggwrLoc x W c.1 i = .ok r := by
    intro i
    rcases ggwrLoc_cases x W c.1 hwt i with ⟨lf, -, h⟩ | ⟨_, h⟩
    · exact ⟨_, h⟩
    · rw [ggwrHat_fail hex hwt i h] at h3; cases h3
  choose f hf using hall
  rw [ggwrHat_ok hex _ hf] at h3
  have ha := (Res.ok.inj h3).symm
  subst ha
  have h3' := ggwrHat_ok hex' (x := permRows σ x) (W := permW σ W) (st := permCal σ c.1) (fun i => (permLocal σ (f (σ i)).1, (f (σ i)).2))
    fun i => ggwrLoc_perm σ (hf (σ i))
  have hsh : ∑ i, shatRow i (permLocal σ (f (σ i)).1) = ∑ i, shatRow i (f i).1 := by
    rw [← Equiv.sum_comp σ fun i => shatRow i (f i).1]
    exact Finset.sum_congr rfl fun i _ => shatRow_perm σ i _
  rw [hsh] at h3'
  rw [← Res.ok.inj h]
  refine ⟨⟨fun i => (f (σ i)).1.beta, fun i => (f (σ i)).2, ∑ i, shatRow i (f i).1, dev + 2 * (∑ i, shatRow i (f i).1) 0,
    dev + 2 * (∑ i, shatRow i (f i).1) 0 + corr, dev, 1 - q, glm, permCal σ c.1, c.2⟩, ?_,
    ⟨fun _ => rfl, fun _ => rfl, rfl, rfl, rfl, rfl, rfl, rfl, fun _ => ⟨rfl, rfl, rfl⟩, rfl, rfl⟩⟩
  unfold ggwrFit
  rw [calGlm_perm F σ h1]
  simp only [Res.bind]
  rw [wtCalc_perm F tol m σ h2]
  simp only
  rw [h3']
  simp only
  have h4' : gwDev F (permRows σ x) (y ∘ σ) (permCal σ c.1) (fun i => (permLocal σ (f (σ i)).1).beta) = .ok dev :=
    gwDev_perm F σ (B := fun i => (f i).1.beta) h4
  rw [h4']
  simp only
  have h5' : fdiv (2 * (∑ i, shatRow i (f i).1) 0 * ((∑ i, shatRow i (f i).1) 0 + 1)) (n - (∑ i, shatRow i (f i).1) 0 - 1) = .ok corr := h5
  rw [h5']
  simp only
  rw [h6]
  rfl

/-! ### Bandwidth selection -/

theorem cvWeight_permW (σ : Equiv.Perm (Fin n)) (W : Fin n → Fin n → ℝ) : cvWeight (permW σ W) = permW σ (cvWeight W) := by
  funext i
  exact permW_cv σ W i

theorem ggwrCV_perm {F : Family} {tol : ℝ} {m : ℕ} (σ : Equiv.Perm (Fin n)) {x : Matrix (Fin n) (Fin k) ℝ} {y : Fin n → ℝ} {W : Fin n → Fin n → ℝ}
    {v : ℝ} (h : ggwrCVSerial F tol m x y W = .ok v) : ggwrCVSerial F tol m (permRows σ x) (y ∘ σ) (permW σ W) = .ok v := by
  unfold ggwrCVSerial at h ⊢
  obtain ⟨c, hc, h⟩ := Res.bind_eq_ok'.1 h
  obtain ⟨⟨rv, rt⟩, hr, h⟩ := Res.bind_eq_ok'.1 h
  have hrt : rt = false := serialFor_nostop _ _ _ hr
  subst hrt
  have hok := serialFor_complete _ _ _ _ hr
  choose f hf using fun i => hok i (List.mem_finRange i)
  have hfold := serialFor_eq_fold _ _ _ _ hr f fun i _ => hf i
  rw [foldl_rows_finRange] at hfold
  have hf' : ∀ i, ggwrCVLoc F (permRows σ x) (y ∘ σ) (permW σ W) (permCal σ c.1) i = .ok (f (σ i)) := by
    intro i
    rw [← hf (σ i)]
    unfold ggwrCVLoc
    rw [cvWeight_permW]
    exact congrArg (fun z : Res (Fin k → ℝ) => z.bind fun b => .ok (y (σ i) - locMean F (∑ j, x (σ i) j * b j)))
      (gwPredict_perm σ x c.1.yAdj fun l => cvWeight W (σ i) l * c.1.wt2 l)
  have hc' : wtCalc F tol m (permRows σ x) (y ∘ σ) (cvWeight (permW σ W)) = .ok (permCal σ c.1, c.2) := by
    rw [cvWeight_permW]; exact wtCalc_perm F tol m σ hc
  have hs' := serialFor_ok (g := ggwrCVLoc F (permRows σ x) (y ∘ σ) (permW σ W) (permCal σ c.1)) (upd := fun i r (cv : Fin n → ℝ) => Function.update cv i r)
    (stop := fun _ => false) (fun i => f (σ i)) (List.finRange n) 0 (0 : Fin n → ℝ) (fun _ _ => rfl) fun i _ => hf' i
  rw [foldl_rows_finRange] at hs'
  rw [hc']
  simp only [Res.bind]
  rw [hs']
  simp only
  rw [← h, hfold]
  exact congrArg (fun z => Res.ok (finiteOrMax z)) (Equiv.sum_comp σ fun i => f i * f i)

theorem ggwrAIC_perm {F : Family} {tol : ℝ} {m : ℕ} (σ : Equiv.Perm (Fin n)) {x : Matrix (Fin n) (Fin k) ℝ} {y : Fin n → ℝ} {W : Fin n → Fin n → ℝ}
    {v : ℝ} (h : ggwrAICSerial F tol m x y W = .ok v) : ggwrAICSerial F tol m (permRows σ x) (y ∘ σ) (permW σ W) = .ok v := by
  unfold ggwrAICSerial at h ⊢
  obtain ⟨c, hc, h⟩ := Res.bind_eq_ok'.1 h
  obtain ⟨⟨rv, rt⟩, hr, h⟩ := Res.bind_eq_ok'.1 h
  have hrt : rt = false := serialFor_nostop _ _ _ hr
  subst hrt
  have hok := serialFor_complete _ _ _ _ hr
  choose f hf using fun i => hok i (List.mem_finRange i)
  have hfold := serialFor_eq_fold _ _ _ _ hr f fun i _ => hf i
  rw [foldl_add, zero_add, ← List.ofFn_eq_map, List.sum_ofFn] at hfold
  have hf' : ∀ i, ggwrLeverage (permRows σ x) (permW σ W) (permCal σ c.1) i = .ok (f (σ i)) := by
    intro i
    obtain ⟨lf, h1, h2⟩ := Res.bind_eq_ok'.1 (hf (σ i))
    have e1 : localFitInv (permRows σ x) (permCal σ c.1).yAdj (fun l => permW σ W i l * (permCal σ c.1).wt2 l) (permRows σ x i) = .ok (permLocal σ lf) :=
      localFitInv_perm σ (x := x) (y := c.1.yAdj) (w := fun l => W (σ i) l * c.1.wt2 l) (xi := x (σ i)) h1
    unfold ggwrLeverage
    rw [e1, ← Res.ok.inj h2]; rfl
  have hs' := serialFor_ok (g := ggwrLeverage (permRows σ x) (permW σ W) (permCal σ c.1)) (upd := fun _ r (t : ℝ) => t + r)
    (stop := fun _ => false) (fun i => f (σ i)) (List.finRange n) 0 (0 : ℝ) (fun _ _ => rfl) fun i _ => hf' i
  rw [foldl_add, zero_add, ← List.ofFn_eq_map, List.sum_ofFn, Equiv.sum_comp σ f, ← hfold] at hs'
  rw [wtCalc_perm F tol m σ hc]
  simp only [Res.bind]
  rw [hs']
  exact h

theorem ggwrCriterion_reordered {F : Family} {tol : ℝ} {m : ℕ} {crit : GgwrCriterionType} {σ : Equiv.Perm (Fin n)} {geo : Bool}
    {c c' : DynMat} (hp : PermCoords n σ c c') {x : Matrix (Fin n) (Fin k) ℝ} {y : Fin n → ℝ} {b : BandwidthWeight} {v : ℝ} :
    ggwrCriterion F tol m crit ⟨geo, some (c', c')⟩ (permRows σ x) (y ∘ σ) b = .ok v ↔ ggwrCriterion F tol m crit ⟨geo, some (c, c)⟩ x y b = .ok v := by
  have key : ∀ {σ : Equiv.Perm (Fin n)} {c c' : DynMat} (_ : PermCoords n σ c c') {x : Matrix (Fin n) (Fin k) ℝ} {y : Fin n → ℝ},
      ggwrCriterion F tol m crit ⟨geo, some (c, c)⟩ x y b = .ok v → ggwrCriterion F tol m crit ⟨geo, some (c', c')⟩ (permRows σ x) (y ∘ σ) b = .ok v := by
    intro σ c c' hp x y h
    unfold ggwrCriterion at h ⊢
    obtain ⟨W, hW, h⟩ := Res.bind_eq_ok'.1 h
    rw [perm_weights hp hW]
    cases crit
    · exact ggwrAIC_perm σ h
    · exact ggwrCV_perm σ h
  refine ⟨fun h => ?_, key hp⟩
  have := key hp.symm h
  rwa [perm_perm, show (y ∘ σ) ∘ σ.symm = y from by funext i; simp] at this

theorem ggwrScore_reordered {F : Family} {tol : ℝ} {m : ℕ} {crit : GgwrCriterionType} {σ : Equiv.Perm (Fin n)} {geo : Bool}
    {c c' : DynMat} (hp : PermCoords n σ c c') (x : Matrix (Fin n) (Fin k) ℝ) (y : Fin n → ℝ) (b : BandwidthWeight) :
    ggwrScore F tol m crit ⟨geo, some (c', c')⟩ (permRows σ x) (y ∘ σ) b = ggwrScore F tol m crit ⟨geo, some (c, c)⟩ x y b := by
  have h := fun v => ggwrCriterion_reordered (F := F) (tol := tol) (m := m) (crit := crit) (geo := geo) hp (x := x) (y := y) (b := b) (v := v)
  unfold ggwrScore
  cases h1 : ggwrCriterion F tol m crit ⟨geo, some (c', c')⟩ (permRows σ x) (y ∘ σ) b with
  | ok v => rw [(h v).1 h1]
  | _ =>
    cases h2 : ggwrCriterion F tol m crit ⟨geo, some (c, c)⟩ x y b with
    | ok v => rw [(h v).2 h2] at h1; cases h1
    | _ => rfl

/-- **C145 (given bandwidth).** A Poisson or binomial fit with a given bandwidth of the same observations listed in another order, serially or under any
schedule: coefficients, standard errors, working responses, working weights and means move with their observations; trace, AIC, AICc, deviance, R², the
report of the global model, the log-likelihood and whether the calibration converged are the same. -/
theorem C145_fit (F : Family) (tol : ℝ) (m : ℕ) (ex ex' : Exec n) (hex : ex.Valid) (hex' : ex'.Valid) (d : CRSDistance) (b : BandwidthWeight)
    (coords coords' : DynMat) (σ : Equiv.Perm (Fin n)) (hp : PermCoords n σ coords coords') (x : Matrix (Fin n) (Fin k) ℝ) (y : Fin n → ℝ)
    (r : GgwrResult n k) (h : ggwrRun F tol m d b coords x y ex = .ok r) :
    ∃ r', ggwrRun F tol m d b coords' (fun i => x (σ i)) (fun i => y (σ i)) ex' = .ok r' ∧ GeneralisedReordered σ r r' := by
  unfold ggwrRun at h
  obtain ⟨d', hd, h⟩ := Res.bind_eq_ok'.1 h
  obtain ⟨c1, -, rfl⟩ := bindLocations_eq_ok.1 hd
  obtain ⟨W, hW, h⟩ := Res.bind_eq_ok'.1 h
  obtain ⟨r', h', hr⟩ := ggwrFit_perm F tol m σ hex hex' h
  exact ⟨r', Res.bind_eq_ok'.2 ⟨_, bindLocations_eq_ok.2 ⟨hp.2.2.1.trans c1, hp.2.2.1.trans c1, rfl⟩, Res.bind_eq_ok'.2 ⟨_, perm_weights hp hW, h'⟩⟩, hr⟩

/-- **C145 (bandwidth selected).** With automatic bandwidth selection, by either criterion in serial mode, the same bandwidth is selected and the report is
reordered as in `C145_fit`. -/
theorem C145_selection (F : Family) (tol : ℝ) (m : ℕ) (crit : GgwrCriterionType) (d : CRSDistance) (b0 : BandwidthWeight)
    (coords coords' : DynMat) (σ : Equiv.Perm (Fin n)) (hp : PermCoords n σ coords coords') (x : Matrix (Fin n) (Fin k) ℝ) (y : Fin n → ℝ)
    (b : BandwidthWeight) (r : GgwrResult n k) (h : ggwrAutoRun F tol m crit d b0 coords x y = .ok (b, r)) :
    ∃ r', ggwrAutoRun F tol m crit d b0 coords' (fun i => x (σ i)) (fun i => y (σ i)) = .ok (b, r') ∧ GeneralisedReordered σ r r' := by
  rw [show (fun i => x (σ i)) = permRows σ x from rfl, show (fun i => y (σ i)) = y ∘ σ from rfl]
  unfold ggwrAutoRun at h
  obtain ⟨d', hd, h⟩ := Res.bind_eq_ok'.1 h
  obtain ⟨c1, -, rfl⟩ := bindLocations_eq_ok.1 hd
  obtain ⟨s, hsel, h⟩ := Res.bind_eq_ok'.1 h
  obtain ⟨b2, hb, h⟩ := Res.bind_eq_ok'.1 h
  obtain ⟨W, hW, h⟩ := Res.bind_eq_ok'.1 h
  obtain ⟨f, hf, h⟩ := Res.bind_eq_ok'.1 h
  simp only [Res.ok.injEq, Prod.mk.injEq] at h
  obtain ⟨rfl, rfl⟩ := h
  obtain ⟨r', h', hr⟩ := ggwrFit_perm F tol m σ (ex := .serial) (ex' := .serial) trivial trivial hf
  have hsel' : ggwrSelectBandwidth F tol m crit ⟨d.mGeographic, some (coords', coords')⟩ b0 (permRows σ x) (y ∘ σ) = .ok s := by
    have e : (fun (_ : ℕ) b => (true, ggwrScore F tol m crit ⟨d.mGeographic, some (coords', coords')⟩ (permRows σ x) (y ∘ σ) b)) =
        fun (_ : ℕ) b => (true, ggwrScore F tol m crit ⟨d.mGeographic, some (coords, coords)⟩ x y b) := by
      funext _ b
      rw [ggwrScore_reordered hp]
    unfold ggwrSelectBandwidth at hsel ⊢
    obtain ⟨u, hu, hsel⟩ := Res.bind_eq_ok'.1 hsel
    refine Res.bind_eq_ok'.2 ⟨u, ?_, ?_⟩
    · split at hu
      · rename_i ha; rw [if_pos ha]; exact hu
      · rename_i ha; rw [if_neg ha]; exact max_reordered hp hu
    · simp only [e, ggwrCriterion_reordered hp]
      exact hsel
  exact ⟨r', Res.bind_eq_ok'.2 ⟨_, bindLocations_eq_ok.2 ⟨hp.2.2.1.trans c1, hp.2.2.1.trans c1, rfl⟩, Res.bind_eq_ok'.2 ⟨s, hsel',
    Res.bind_eq_ok'.2 ⟨_, hb, Res.bind_eq_ok'.2 ⟨_, perm_weights hp hW, Res.bind_eq_ok'.2 ⟨r', h', rfl⟩⟩⟩⟩⟩, hr⟩

/-- **C145 (bandwidth selected, any mode).** With cross-validation the selection may also run multithreaded, each run under its own schedules. -/
theorem C145_selection_modes (F : Family) (tol : ℝ) (m : ℕ) (hn : 0 < n) (d : CRSDistance) (b0 : BandwidthWeight)
    (coords coords' : DynMat) (σ : Equiv.Perm (Fin n)) (hp : PermCoords n σ coords coords') (x : Matrix (Fin n) (Fin k) ℝ) (y : Fin n → ℝ)
    (sched sched' : ℕ → Exec n) (hs : ∀ j, (sched j).Valid) (hs' : ∀ j, (sched' j).Valid) (ex ex' : Exec n) (hex : ex.Valid) (hex' : ex'.Valid)
    (b : BandwidthWeight) (r : GgwrResult n k) (h : ggwrAutoRunEx F tol m .CV d b0 coords x y sched ex = .ok (b, r)) :
    ∃ r', ggwrAutoRunEx F tol m .CV d b0 coords' (fun i => x (σ i)) (fun i => y (σ i)) sched' ex' = .ok (b, r') ∧ GeneralisedReordered σ r r' := by
  rw [C138_generalised_partial F tol m hn d b0 coords x y sched hs ex hex] at h
  obtain ⟨r', h', hr⟩ := C145_selection F tol m .CV d b0 coords coords' σ hp x y b r h
  exact ⟨r', (C138_generalised_partial F tol m hn d b0 coords' (permRows σ x) (y ∘ σ) sched' hs' ex' hex').trans h', hr⟩

/-- C145, given bandwidth: three counts on a line, two of them exchanged; the second run multithreaded. -/
example (tol : ℝ) : ∃ r r', ggwrRun .Poisson tol 20 ⟨false, none⟩ ⟨100, false, .Boxcar⟩ (lineCoords 2) (ones 3) ![0, 1, 4] .serial = .ok r ∧
    ggwrRun .Poisson tol 20 ⟨false, none⟩ ⟨100, false, .Boxcar⟩ (reorderedCoords (Equiv.swap (0 : Fin 3) 2) (lineCoords 2))
      (fun i => ones 3 (Equiv.swap 0 2 i)) (fun i => ![0, 1, 4] (Equiv.swap (0 : Fin 3) 2 i)) (moreThreads 3) = .ok r' ∧
    GeneralisedReordered (Equiv.swap (0 : Fin 3) 2) r r' := by
  obtain ⟨r, h, -⟩ := ex_ggwrRun tol .serial trivial
  obtain ⟨r', h', hr⟩ := C145_fit .Poisson tol 20 .serial (moreThreads 3) trivial moreThreads_valid _ _ _ _ (Equiv.swap 0 2)
    (reorderedCoords_perm (n := 3) _ rfl) _ _ r h
  exact ⟨r, r', h, h', hr⟩

/-- C145, bandwidth selected by cross-validation: two pairs of places, the first and the last exchanged. -/
example (tol : ℝ) : ∃ b r r', ggwrAutoRunEx .Poisson tol 1 .CV ⟨false, none⟩ ⟨1, false, .Boxcar⟩ twinCoords (ones 4) twinY (fun _ => .serial) .serial = .ok (b, r) ∧
    ggwrAutoRun .Poisson tol 1 .CV ⟨false, none⟩ ⟨1, false, .Boxcar⟩ twinCoords (ones 4) twinY = .ok (b, r) ∧
    ggwrAutoRunEx .Poisson tol 1 .CV ⟨false, none⟩ ⟨1, false, .Boxcar⟩ (reorderedCoords (Equiv.swap (0 : Fin 4) 3) twinCoords)
      (fun i => ones 4 (Equiv.swap 0 3 i)) (fun i => twinY (Equiv.swap 0 3 i)) (fun _ => moreThreads 4) (moreThreads 4) = .ok (b, r') ∧
    GeneralisedReordered (Equiv.swap (0 : Fin 4) 3) r r' := by
  obtain ⟨b, r, h⟩ := ex_ggwrAuto tol (fun _ => .serial) (fun _ => trivial) (fun _ _ h => by cases h) .serial trivial
  obtain ⟨r', h', hr⟩ := C145_selection_modes .Poisson tol 1 (by norm_num) _ _ _ _ (Equiv.swap 0 3) (reorderedCoords_perm (n := 4) _ rfl) _ _
    (fun _ => .serial) (fun _ => moreThreads 4) (fun _ => trivial) (fun _ => moreThreads_valid) .serial (moreThreads 4) trivial moreThreads_valid b r h
  refine ⟨b, r, r', h, ?_, h', hr⟩
  exact (C138_generalised_partial .Poisson tol 1 (by norm_num) _ _ twinCoords (ones 4) twinY (fun _ => .serial) (fun _ => trivial) .serial trivial).symm.trans h

end Verif.Props

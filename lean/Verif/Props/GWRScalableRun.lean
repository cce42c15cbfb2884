import Verif.Model.GWRScalableRun
import Verif.Props.GWRScalable
import Verif.Props.GWRDefinition

/-! # C100, C101: whole runs of scalable regression; predictions at several locations -/

namespace Verif.Props
open Verif Verif.Model Verif.Spec Matrix Classical

variable {m n k : ℕ}

theorem armaMedian_spec {v : Fin m → ℝ} {q : ℝ} (h : armaMedian v = .ok q) : IsMedian v q := by
  unfold armaMedian at h
  by_cases h0 : m = 0
  · rw [if_pos h0] at h; cases h
  rw [if_neg h0] at h
  have hg : ∀ i (hi : i < m), (sortVec v)[i]?.getD 0 = (sortVec v)[i]'(by rw [sortVec_length]; exact hi) := by
    intro i hi
    rw [List.getElem?_eq_getElem (by rw [sortVec_length]; exact hi)]; rfl
  by_cases h1 : m % 2 = 1
  · rw [if_pos h1] at h
    have e := sorted_get_isKth v (k := m / 2 + 1) (by omega) (by omega)
    have e' : (m + 1) / 2 = m / 2 + 1 := by omega
    refine ⟨_, _, by rw [e']; exact e, e, ?_⟩
    rw [← Res.ok.inj h, hg _ (by omega)]
    simp
  · rw [if_neg h1] at h
    have e1 := sorted_get_isKth v (k := (m + 1) / 2) (by omega) (by omega)
    have e2 := sorted_get_isKth v (k := m / 2 + 1) (by omega) (by omega)
    refine ⟨_, _, e1, e2, ?_⟩
    rw [← Res.ok.inj h, hg _ (by omega), hg _ (by omega)]
    have : m / 2 - 1 = (m + 1) / 2 - 1 := by omega
    simp [this]

theorem sorted_eq_sortVec {d : Fin n → ℝ} {σ : Equiv.Perm (Fin n)} (hσ : Sorts d σ) : (List.ofFn σ).map d = sortVec d := by
  refine List.Perm.eq_of_pairwise (le := (· ≤ ·)) (fun a b _ _ => le_antisymm) ?_ (sortVec_pairwise d) ?_
  · rw [List.map_ofFn, List.pairwise_ofFn]
    exact fun i j h => hσ h.le
  · rw [List.map_ofFn]
    refine List.Perm.trans ?_ (sortVec_perm d).symm
    exact Equiv.Perm.ofFn_comp_perm σ d

theorem sorted_kth {d : Fin n → ℝ} {σ : Equiv.Perm (Fin n)} (hσ : Sorts d σ) {K cnt : ℕ} (h1 : 1 ≤ K) (hK : K ≤ cnt) (hc : cnt ≤ n) :
    IsKthSmallest d K (((((List.ofFn σ).take cnt).map d)[K - 1]?).getD 0) := by
  have e := sorted_get_isKth d h1 (hK.trans hc)
  rw [List.map_take, sorted_eq_sortVec hσ, List.getElem?_take_of_lt (by omega),
    List.getElem?_eq_getElem (by rw [sortVec_length]; omega)]
  exact e

/-- The base weight of a kernel that scalable regression accepts. -/
noncomputable def scaBase (ker : KernelType) : ℝ → ℝ → ℝ := if ker = .Gaussian then baseGauss else baseExp

theorem scaBaseWeight_eq {ker : KernelType} (hk : ker = .Gaussian ∨ ker = .Exponential) {med d w : ℝ}
    (h : (scaBaseWeight ker med d).getD .ub = .ok w) : w = scaBase ker med d := by
  have h3 : Real.sqrt 3 ≠ 0 := by positivity
  rcases hk with rfl | rfl
  · unfold scaBaseWeight at h
    simp only [Option.getD_some, fdiv, h3, if_false, Res.bind] at h
    by_cases hm : med / Real.sqrt 3 = 0
    · rw [if_pos hm] at h; cases h
    rw [if_neg hm] at h
    have hm' : med ≠ 0 := fun e => hm (by rw [e, zero_div])
    rw [← Res.ok.inj h, scaBase, if_pos rfl, baseGauss]
    congr 1
    rw [div_div_eq_mul_div, div_pow, mul_pow, Real.sq_sqrt (by norm_num)]
    ring
  · unfold scaBaseWeight at h
    simp only [Option.getD_some, fdiv, Res.bind] at h
    rw [if_neg (by norm_num)] at h
    by_cases hm : med / 3 = 0
    · simp only [if_pos hm] at h; cases h
    simp only [if_neg hm] at h
    rw [← Res.ok.inj h, scaBase, if_neg (by decide), baseExp]
    congr 1
    rw [div_div_eq_mul_div]
    ring

theorem scaBase_nonneg (ker : KernelType) (med d : ℝ) : 0 ≤ scaBase ker med d := by
  unfold scaBase baseGauss baseExp
  split <;> exact (Real.exp_pos _).le

theorem forall₂_eq_map {α β : Type*} {f : α → β} {l : List α} {ys : List β} (h : List.Forall₂ (fun a b => b = f a) l ys) :
    ys = l.map f := by
  induction h with
  | nil => rfl
  | cons h _ ih => rw [h, ih]; rfl

theorem scaBaseRows_ok {ker : KernelType} (hk : ker = .Gaussian ∨ ker = .Exponential) {rows : Fin m → NeiRow n} {col : Fin m → ℝ}
    {nei : Fin m → NeiRow n} (h : scaBaseRows ker rows col = .ok nei) :
    ∃ med, IsMedian col med ∧ ∀ i, nei i = (rows i).map fun j => (j.1, scaBase ker med j.2) := by
  obtain ⟨med, hm, h⟩ := Res.bind_eq_ok'.1 h
  refine ⟨med, armaMedian_spec hm, fun i => ?_⟩
  have hi := mapRes_eq_ok.1 (Res.tabulate_eq_ok.1 h i)
  refine forall₂_eq_map (hi.imp ?_)
  intro j w hw
  obtain ⟨v, hv, e⟩ := Res.bind_eq_ok'.1 hw
  rw [← Res.ok.inj e, scaBaseWeight_eq hk hv]

theorem polyWeight_nodup {P : ℕ} {b a : ℝ} {l : List (Fin n)} (hl : l.Nodup) (g : Fin n → ℝ) (t : Fin n) :
    polyWeight P b a (l.map fun j => (j, g j)) t = a + if t ∈ l then polyKernel P b (g t) else 0 := by
  unfold polyWeight
  congr 1
  rw [List.filter_map, List.map_map]
  have : (l.filter ((fun j : Fin n × ℝ => decide (j.1 = t)) ∘ fun j => (j, g j))) = l.filter (fun j => decide (j = t)) := rfl
  rw [this]
  by_cases ht : t ∈ l
  · have : l.filter (fun j => decide (j = t)) = [t] := by
      have e := List.filter_beq (l := l) (a := t)
      rw [List.count_eq_one_of_mem hl ht, List.replicate_one] at e
      rw [← e]
      rfl
    rw [this, if_pos ht]; simp
  · have : l.filter (fun j => decide (j = t)) = [] := by
      rw [List.filter_eq_nil_iff]; intro j hj; simp only [decide_eq_true_eq]; rintro rfl; exact ht hj
    rw [this, if_neg ht]; simp

/-- What the tables of neighbours and base weights mean. -/
theorem scaRows_ok {ker : KernelType} (hk : ker = .Gaussian ∨ ker = .Exponential) {bw : ℝ} {σ : (Fin n → ℝ) → Equiv.Perm (Fin n)}
    (hσ : ∀ d, Sorts d (σ d)) {d : Fin m → Fin n → ℝ} {nei : Fin m → NeiRow n} (h : scaRows ker bw σ d = .ok nei) (P : ℕ) (b a : ℝ) :
    ScalableWeights (scaBase ker) d ⌊bw⌋₊ P b a (fun i => polyWeight P b a (nei i)) ∧ ∀ i, ∀ j ∈ nei i, 0 ≤ j.2 := by
  obtain ⟨rows, hr, h⟩ := Res.bind_eq_ok'.1 h
  obtain ⟨col, hcol, h⟩ := Res.bind_eq_ok'.1 h
  obtain ⟨nei', hnei, h⟩ := Res.bind_eq_ok'.1 h
  have hc : scaCount bw n = ⌊bw⌋₊ := by by_contra hc; rw [if_neg hc] at h; cases h
  rw [if_pos hc] at h
  cases Res.ok.inj h
  have hr := Res.tabulate_eq_ok.1 hr
  unfold scaBandColumn at hcol
  by_cases h0 : ⌊bw⌋₊ = 0
  · rw [if_pos h0] at hcol; cases hcol
  rw [if_neg h0, if_pos (by omega)] at hcol
  have hle : ⌊bw⌋₊ ≤ n := hc ▸ scaCount_le bw n
  have hrow : ∀ i, rows i = ((List.ofFn (σ (d i))).take ⌊bw⌋₊).map fun j => (j, d i j) := by
    intro i
    have := hr i
    unfold scaNeighbours at this
    rw [hc, scaNearest_ok h0 hle] at this
    exact (Res.ok.inj this).symm
  obtain ⟨med, hmed, hn⟩ := scaBaseRows_ok hk hnei
  refine ⟨⟨col, med, fun i => ?_, hmed, fun i => ⟨_, take_sorted_nearest (hσ (d i)) hle, fun j => ?_⟩⟩, fun i j hj => ?_⟩
  · rw [← Res.ok.inj hcol]
    simp only [hrow, List.map_map]
    exact sorted_kth (hσ (d i)) (by omega) (by omega) hle
  · show polyWeight P b a (nei i) j = _
    rw [hn, hrow, List.map_map]
    exact polyWeight_nodup ((take_sorted_nearest (hσ (d i)) hle).nodup) (fun j => scaBase ker med (d i j)) j
  · rw [hn] at hj
    obtain ⟨q, _, rfl⟩ := List.mem_map.1 hj
    exact scaBase_nonneg ..

theorem scaSystem_scale {P : ℕ} {x : Matrix (Fin n) (Fin k) ℝ} {y : Fin n → ℝ} {nei : NeiRow n} {bt a : ℝ}
    {s : Matrix (Fin k) (Fin k) ℝ × (Fin k → ℝ)} (h : scaSystem P x y nei (bt * bt) a = .ok s) : 0 < bt * bt := by
  rcases eq_or_ne bt 0 with rfl | hb
  · rw [mul_zero, C36_scale_zero] at h; cases h
  · exact mul_self_pos.2 hb

theorem scaChoose_ok {u : ScaCfg n k} {x : Matrix (Fin n) (Fin k) ℝ} {y : Fin n → ℝ} {D : Fin n → Fin n → ℝ} {b a cv : ℝ}
    (h : scaChoose u x y D = .ok (some (b, a, cv))) :
    (u.ker = .Gaussian ∨ u.ker = .Exponential) ∧ ∃ st nei bt al, scaSetup u.crit u.bw u.σ D = .ok st ∧
      scaBaseRows u.ker st.1 st.2 = .ok nei ∧ scaCriterion u.crit u.P x y nei u.approx bt al = .ok cv ∧ cv < dblMax ∧
      b = bt * bt ∧ a = al * al ∧ (bt, al) = u.opt (scaCriterion u.crit u.P x y nei u.approx) := by
  unfold scaChoose at h
  by_cases hk : u.ker = .Gaussian ∨ u.ker = .Exponential
  swap
  · rw [if_neg hk] at h; cases h
  rw [if_pos hk] at h
  obtain ⟨st, hs, h⟩ := Res.bind_eq_ok'.1 h
  obtain ⟨nei, hn, h⟩ := Res.bind_eq_ok'.1 h
  refine ⟨hk, st, nei, (u.opt (scaCriterion u.crit u.P x y nei u.approx)).1, (u.opt (scaCriterion u.crit u.P x y nei u.approx)).2,
    hs, hn, ?_⟩
  simp only at h
  cases hc : scaCriterion u.crit u.P x y nei u.approx (u.opt (scaCriterion u.crit u.P x y nei u.approx)).1
      (u.opt (scaCriterion u.crit u.P x y nei u.approx)).2 with
  | ok v =>
    rw [hc] at h
    simp only at h
    by_cases hv : v < dblMax
    · rw [if_pos hv] at h
      simp only [Res.ok.injEq, Option.some.injEq, Prod.mk.injEq] at h
      obtain ⟨rfl, rfl, rfl⟩ := h
      exact ⟨rfl, hv, rfl, rfl, rfl⟩
    · rw [if_neg hv] at h; cases h
  | throw e => rw [hc] at h; cases h
  | ub => rw [hc] at h; cases h
  | nonfinite => rw [hc] at h; cases h

/-- **C100 (fit).** Whatever the data, the distances, the criterion, the degree, the bandwidth, the order in which equal distances are
listed and the parameters the minimiser picks: if `fit` computes coefficients, then the coefficients at every observation are the solution
of the regression with the weights of scalable regression for the reported scale and penalty, if these determine one, and 0 otherwise. The
neighbours are as many as the bandwidth says, but at most all observations but one. -/
theorem C100_fit_is_scalable_regression (u : ScaCfg n k) (hσ : ∀ d, Sorts d (u.σ d)) (x : Matrix (Fin n) (Fin k) ℝ) (y : Fin n → ℝ)
    (D : Fin n → Fin n → ℝ) (r : ScaFit n k) (h : scaFit u x y D = .ok (some r)) :
    (u.ker = .Gaussian ∨ u.ker = .Exponential) ∧ 0 ≤ r.scale ∧ 0 ≤ r.penalty ∧ r.cv < dblMax ∧
    ∃ W, ScalableWeights (if u.ker = .Gaussian then baseGauss else baseExp) D (min ⌊u.bw⌋₊ (n - 1)) u.P r.scale r.penalty W ∧
      ∀ i, (∀ j, 0 ≤ W i j) ∧ (Determined x (W i) → IsWLS x y (W i) (r.betas i)) ∧ (¬ Determined x (W i) → r.betas i = 0) := by
  unfold scaFit at h
  obtain ⟨c, hc, h⟩ := Res.bind_eq_ok'.1 h
  match c, hc, h with
  | none, _, h => cases h
  | some (b, a, cv), hc, h =>
    obtain ⟨hk, st, nei0, bt, al, -, -, -, hcv, rfl, rfl, -⟩ := scaChoose_ok hc
    obtain ⟨nei, hn, h⟩ := Res.bind_eq_ok'.1 h
    obtain ⟨betas, hb, h⟩ := Res.bind_eq_ok'.1 h
    obtain ⟨tr, ht, h⟩ := Res.bind_eq_ok'.1 h
    cases Option.some.inj (Res.ok.inj h)
    obtain ⟨hw, hg⟩ := scaRows_ok hk hσ hn u.P (bt * bt) (al * al)
    have hq : ⌊((scaBw u.bw n : ℕ) : ℝ)⌋₊ = min ⌊u.bw⌋₊ (n - 1) := by
      rw [Nat.floor_natCast]; unfold scaBw; split <;> omega
    rw [hq] at hw
    refine ⟨hk, mul_self_nonneg _, mul_self_nonneg _, hcv, _, hw, fun i => ?_⟩
    have hbi := Res.tabulate_eq_ok.1 hb i
    have hpos : 0 < bt * bt := by
      obtain ⟨s, hs, -⟩ := Res.bind_eq_ok'.1 hbi
      exact scaSystem_scale hs
    obtain ⟨beta, e, h1, h2⟩ := C36_coefficients (P := u.P) x y hpos (mul_self_nonneg al) (hg i)
    rw [e] at hbi
    cases Res.ok.inj hbi
    exact ⟨polyWeight_nonneg u.P hpos.le (mul_self_nonneg al) (hg i), h1, h2⟩

/-- **C100 (prediction).** The coefficients predicted at given locations are the solutions for the weights at these locations. -/
theorem C100_prediction_is_scalable_regression (u : ScaCfg n k) (hσ : ∀ d, Sorts d (u.σ d)) (x : Matrix (Fin n) (Fin k) ℝ)
    (y : Fin n → ℝ) (D : Fin n → Fin n → ℝ) (d : Fin m → Fin n → ℝ) (B : Matrix (Fin m) (Fin k) ℝ)
    (h : scaPredict u x y D d = .ok (some B)) :
    ∃ b a W, 0 ≤ b ∧ 0 ≤ a ∧ (∀ r, scaFit u x y D = .ok (some r) → b = r.scale ∧ a = r.penalty) ∧
      ScalableWeights (if u.ker = .Gaussian then baseGauss else baseExp) d (min ⌊u.bw⌋₊ (n - 1)) u.P b a W ∧
      ∀ i, IsWLS x y (W i) (B i) := by
  unfold scaPredict at h
  obtain ⟨c, hc, h⟩ := Res.bind_eq_ok'.1 h
  match c, hc, h with
  | none, _, h => cases h
  | some (b, a, cv), hc, h =>
    obtain ⟨hk, st, nei0, bt, al, -, -, -, hcv, rfl, rfl, -⟩ := scaChoose_ok hc
    obtain ⟨nei, hn, h⟩ := Res.bind_eq_ok'.1 h
    obtain ⟨betas, hb, h⟩ := Res.bind_eq_ok'.1 h
    cases Option.some.inj (Res.ok.inj h)
    obtain ⟨hw, hg⟩ := scaRows_ok hk hσ hn u.P (bt * bt) (al * al)
    have hq : ⌊((scaBw u.bw n : ℕ) : ℝ)⌋₊ = min ⌊u.bw⌋₊ (n - 1) := by
      rw [Nat.floor_natCast]; unfold scaBw; split <;> omega
    rw [hq] at hw
    refine ⟨_, _, _, mul_self_nonneg _, mul_self_nonneg _, fun r hr => ?_, hw, fun i => ?_⟩
    · unfold scaFit at hr
      rw [hc] at hr
      obtain ⟨_, e, hr⟩ := Res.bind_eq_ok'.1 hr
      cases Res.ok.inj e
      obtain ⟨_, _, hr⟩ := Res.bind_eq_ok'.1 hr
      obtain ⟨_, _, hr⟩ := Res.bind_eq_ok'.1 hr
      obtain ⟨_, _, hr⟩ := Res.bind_eq_ok'.1 hr
      cases Option.some.inj (Res.ok.inj hr)
      exact ⟨rfl, rfl⟩
    · have hbi := Res.tabulate_eq_ok.1 hb i
      obtain ⟨s, hs, hbi⟩ := Res.bind_eq_ok'.1 hbi
      have hpos := scaSystem_scale hs
      rw [scaSystem_eq hpos] at hs
      cases Res.ok.inj hs
      rw [scaSolve_gram (polyWeight_nonneg u.P hpos.le (mul_self_nonneg al) (hg i))] at hbi
      by_cases hp : (xtwx x (polyWeight u.P (bt * bt) (al * al) (nei i))).PosDef
      · rw [if_pos hp] at hbi
        have : Matrix.of betas i = betas i := rfl
        rw [this, ← Res.ok.inj hbi]
        exact isWLS_of_posDef hp
      · rw [if_neg hp] at hbi; cases hbi

theorem scaSetup_cv {bw : ℝ} {σ : (Fin n → ℝ) → Equiv.Perm (Fin n)} (hσ : ∀ d, Sorts d (σ d)) {D : Fin n → Fin n → ℝ}
    {st : (Fin n → NeiRow n) × (Fin n → ℝ)} (h : scaSetup .CV bw σ D = .ok st) :
    ∃ c, c = min ⌊bw⌋₊ n - 1 ∧ 1 ≤ c ∧ (∀ i, st.1 i = ((List.ofFn (σ (D i))).take c).map fun j => (j, D i j)) ∧
      ∀ i, IsKthSmallest (D i) (min 50 c) (st.2 i) := by
  obtain ⟨rows, hr, h⟩ := Res.bind_eq_ok'.1 h
  obtain ⟨col, hcol, h⟩ := Res.bind_eq_ok'.1 h
  cases Res.ok.inj h
  have hr := Res.tabulate_eq_ok.1 hr
  have hc : scaCount bw n = min ⌊bw⌋₊ n := by unfold scaCount; split <;> omega
  have hb : scaBw bw n = min ⌊bw⌋₊ (n - 1) := by unfold scaBw; split <;> omega
  simp only [scaBandColumn, hc, hb] at hcol
  have h0 : min ⌊bw⌋₊ (n - 1) ≠ 0 := by intro h0; rw [if_pos h0] at hcol; cases hcol
  rw [if_neg h0] at hcol
  have h1 : min 50 (min ⌊bw⌋₊ (n - 1)) - 1 < min ⌊bw⌋₊ n - 1 := by by_contra h1; rw [if_neg h1] at hcol; cases hcol
  rw [if_pos h1] at hcol
  have hrow : ∀ i, rows i = ((List.ofFn (σ (D i))).take (min ⌊bw⌋₊ n - 1)).map fun j => (j, D i j) := by
    intro i
    have := hr i
    simp only [scaDataNeighbours, hc] at this
    rw [if_neg (by omega), scaNearest_ok (by omega) (by omega)] at this
    exact (Res.ok.inj this).symm
  refine ⟨_, rfl, by omega, hrow, fun i => ?_⟩
  have e : min 50 (min ⌊bw⌋₊ n - 1) = min 50 (min ⌊bw⌋₊ (n - 1)) := by omega
  rw [← Res.ok.inj hcol, e]
  simp only [hrow, List.map_map]
  exact sorted_kth (hσ (D i)) (by omega) (by omega) (by omega)

/-- **C100 (criterion).** With CV the reported value is the sum of the squared differences between the responses and the predictions of the
regressions with the weights of scalable regression for one neighbour fewer, if these are determined at every observation. -/
theorem C100_cv_value (u : ScaCfg n k) (hσ : ∀ d, Sorts d (u.σ d)) (hu : u.crit = .CV) (x : Matrix (Fin n) (Fin k) ℝ) (y : Fin n → ℝ)
    (D : Fin n → Fin n → ℝ) (r : ScaFit n k) (h : scaFit u x y D = .ok (some r)) :
    ∃ W, ScalableWeights (if u.ker = .Gaussian then baseGauss else baseExp) D (min ⌊u.bw⌋₊ n - 1) u.P r.scale r.penalty W ∧
      ((∀ i, Determined x (W i)) → ∃ beta : Fin n → Fin k → ℝ, (∀ i, IsWLS x y (W i) (beta i)) ∧
        r.cv = ∑ i, (y i - ∑ j, x i j * beta i j) ^ 2) := by
  unfold scaFit at h
  obtain ⟨c, hc, h⟩ := Res.bind_eq_ok'.1 h
  match c, hc, h with
  | none, _, h => cases h
  | some (b, a, cv), hc, h =>
    obtain ⟨hk, st, nei, bt, al, hst, hnei, hcr, hcv, rfl, rfl, -⟩ := scaChoose_ok hc
    obtain ⟨_, -, h⟩ := Res.bind_eq_ok'.1 h
    obtain ⟨_, -, h⟩ := Res.bind_eq_ok'.1 h
    obtain ⟨_, -, h⟩ := Res.bind_eq_ok'.1 h
    cases Option.some.inj (Res.ok.inj h)
    rw [hu] at hst hcr
    obtain ⟨c, rfl, h1, hrow, hcol⟩ := scaSetup_cv hσ hst
    obtain ⟨med, hmed, hn⟩ := scaBaseRows_ok hk hnei
    have hle : min ⌊u.bw⌋₊ n - 1 ≤ n := by omega
    have hg : ∀ i, ∀ j ∈ nei i, 0 ≤ j.2 := by
      intro i j hj
      rw [hn] at hj
      obtain ⟨q, _, rfl⟩ := List.mem_map.1 hj
      exact scaBase_nonneg ..
    refine ⟨fun i => polyWeight u.P (bt * bt) (al * al) (nei i), ⟨st.2, med, hcol, hmed, fun i =>
      ⟨_, take_sorted_nearest (hσ (D i)) hle, fun j => ?_⟩⟩, fun hd => ?_⟩
    · show polyWeight u.P (bt * bt) (al * al) (nei i) j = _
      rw [hn, hrow, List.map_map]
      exact polyWeight_nodup ((take_sorted_nearest (hσ (D i)) hle).nodup) (fun j => scaBase u.ker med (D i j)) j
    · obtain ⟨sys, hs, hcr⟩ := Res.bind_eq_ok'.1 hcr
      have hs := Res.tabulate_eq_ok.1 hs
      have hpos : 0 < bt * bt := scaSystem_scale (hs ⟨0, by omega⟩)
      have hp : ∀ i, (xtwx x (polyWeight u.P (bt * bt) (al * al) (nei i))).PosDef := fun i =>
        (gram_posDef_iff_determined x _ (polyWeight_nonneg u.P hpos.le (mul_self_nonneg al) (hg i))).2 (hd i)
      have hsys : ∀ i, sys i = (xtwx x (polyWeight u.P (bt * bt) (al * al) (nei i)),
          xtw x (polyWeight u.P (bt * bt) (al * al) (nei i)) *ᵥ y) := by
        intro i
        have := hs i
        rw [scaSystem_eq hpos] at this
        exact (Res.ok.inj this).symm
      have hu : ∀ i, IsUnit (xtwx x (polyWeight u.P (bt * bt) (al * al) (nei i))).det := fun i =>
        (isUnit_iff_isUnit_det _).1 (hp i).isUnit
      simp only [hsys, hu, if_true, Option.isSome_some, implies_true, Option.getD_some] at hcr
      refine ⟨_, fun i => isWLS_of_posDef (hp i), ?_⟩
      show cv = _
      rw [← Res.ok.inj hcr]
      refine Finset.sum_congr rfl fun i _ => ?_
      rw [sq]; rfl

/-! ## C101 -/

/-- **C101 (basic regression).** The coefficients predicted at a location do not depend on which other locations are requested in the same
call, nor on its position among them. -/
theorem C101_basic_prediction_pointwise {m' : ℕ} (d : CRSDistance) (b : BandwidthWeight) (locations locations' coords : DynMat)
    (x : Matrix (Fin n) (Fin k) ℝ) (y : Fin n → ℝ) (stop stop' : ℕ → Bool) (B : Matrix (Fin m) (Fin k) ℝ)
    (B' : Matrix (Fin m') (Fin k) ℝ) (h : gwrPredict d b locations coords m x y stop = .ok (B, false))
    (h' : gwrPredict d b locations' coords m' x y stop' = .ok (B', false)) (i : Fin m) (i' : Fin m')
    (hx : locations.val i 0 = locations'.val i' 0) (hy : locations.val i 1 = locations'.val i' 1) : B i = B' i' := by
  obtain ⟨e, he, h1⟩ := Res.bind_eq_ok'.1 h
  obtain ⟨W, hW, h2⟩ := Res.bind_eq_ok'.1 h1
  obtain ⟨e', he', h1'⟩ := Res.bind_eq_ok'.1 h'
  obtain ⟨W', hW', h2'⟩ := Res.bind_eq_ok'.1 h1'
  obtain ⟨-, -, rfl⟩ := bindLocations_eq_ok.1 he
  obtain ⟨-, -, rfl⟩ := bindLocations_eq_ok.1 he'
  obtain ⟨-, -, dist, hd, hw⟩ := weightRows_eq_ok.1 hW i
  obtain ⟨-, -, dist', hd', hw'⟩ := weightRows_eq_ok.1 hW' i'
  have hdd : dist = dist' := by
    funext j
    have : ∀ c, crsCalc d.mGeographic (locations.val i) c = crsCalc d.mGeographic (locations'.val i') c := by
      intro c; unfold crsCalc euclid spGcdist; simp only [hx, hy]
    exact Res.ok.inj (by rw [← hd j, ← hd' j, this])
  rw [hdd, hw'] at hw
  have e1 := (betaLoop_ok (List.nodup_finRange m) h2).1 i (List.mem_finRange i)
  have e2 := (betaLoop_ok (List.nodup_finRange m') h2').1 i' (List.mem_finRange i')
  rw [← Res.ok.inj hw] at e1
  exact Res.ok.inj (e1.symm.trans e2)

/-- **C101 (scalable regression, at the observations).** Prediction at the observations gives the fitted coefficients. -/
theorem C101_scalable_prediction_at_data (u : ScaCfg n k) (x : Matrix (Fin n) (Fin k) ℝ) (y : Fin n → ℝ) (D : Fin n → Fin n → ℝ)
    (r : ScaFit n k) (hr : scaFit u x y D = .ok (some r)) (B : Matrix (Fin n) (Fin k) ℝ)
    (h : scaPredict u x y D D = .ok (some B)) : B = r.betas := by
  unfold scaFit at hr
  unfold scaPredict at h
  obtain ⟨c, hc, hr⟩ := Res.bind_eq_ok'.1 hr
  rw [hc] at h
  match c, hr, h with
  | none, hr, _ => cases hr
  | some (b, a, cv), hr, h =>
    obtain ⟨nei, hn, hr⟩ := Res.bind_eq_ok'.1 hr
    obtain ⟨betas, hb, hr⟩ := Res.bind_eq_ok'.1 hr
    obtain ⟨_, -, hr⟩ := Res.bind_eq_ok'.1 hr
    cases Option.some.inj (Res.ok.inj hr)
    obtain ⟨_, e, h⟩ := Res.bind_eq_ok'.1 h
    cases Res.ok.inj e
    obtain ⟨nei', hn', h⟩ := Res.bind_eq_ok'.1 h
    rw [hn] at hn'
    cases Res.ok.inj hn'
    obtain ⟨betas', hb', h⟩ := Res.bind_eq_ok'.1 h
    cases Option.some.inj (Res.ok.inj h)
    ext i j
    have e1 := Res.tabulate_eq_ok.1 hb i
    have e2 := Res.tabulate_eq_ok.1 hb' i
    obtain ⟨s, hs, e2⟩ := Res.bind_eq_ok'.1 e2
    unfold scaFitRow at e1
    rw [hs] at e1
    simp only [Res.bind, e2] at e1
    show betas' i j = betas i j
    rw [Res.ok.inj e1]

theorem polyKernel_strictMono {P : ℕ} (hP : 1 ≤ P) {b : ℝ} (hb : 0 < b) {g h : ℝ} (hg : 0 ≤ g) (hgh : g < h) :
    polyKernel P b g < polyKernel P b h := by
  unfold polyKernel
  refine div_lt_div_of_pos_right ?_ (Finset.sum_pos (fun q _ => by positivity) ⟨0, by simp⟩)
  refine add_lt_add_right (Finset.sum_lt_sum_of_nonempty ⟨1, by simp [hP]⟩ fun q _ => ?_) b
  exact mul_lt_mul_of_pos_left (Real.rpow_lt_rpow hg hgh (by positivity)) (by positivity)

/-! ### A run in which another requested location changes the prediction -/

theorem armaMedian_total (hm : 0 < m) (v : Fin m → ℝ) : ∃ q, armaMedian v = .ok q := by
  unfold armaMedian
  rw [if_neg hm.ne']
  split <;> exact ⟨_, rfl⟩

theorem median_pos {v : Fin m → ℝ} {q : ℝ} (h : IsMedian v q) (hv : ∀ i, 0 < v i) : 0 < q := by
  obtain ⟨lo, hi, ⟨⟨i, rfl⟩, _⟩, ⟨⟨j, rfl⟩, _⟩, rfl⟩ := h
  have := hv i; have := hv j; positivity

theorem scaBaseRows_succeeds {ker : KernelType} (hk : ker = .Gaussian ∨ ker = .Exponential) (rows : Fin m → NeiRow n) {col : Fin m → ℝ}
    (hm : 0 < m) (hc : ∀ i, 0 < col i) : ∃ nei, scaBaseRows ker rows col = .ok nei := by
  obtain ⟨med, hmed⟩ := armaMedian_total hm col
  have hpos := median_pos (armaMedian_spec hmed) hc
  have : ∀ d, ∃ w, (scaBaseWeight ker med d).getD .ub = .ok w := by
    intro d
    have h3 : Real.sqrt 3 ≠ 0 := by positivity
    have h4 : med / Real.sqrt 3 ≠ 0 := by positivity
    have h5 : med / 3 ≠ 0 := by positivity
    rcases hk with rfl | rfl
    · simp only [scaBaseWeight, Option.getD_some, fdiv, h3, h4, if_false, Res.bind]; exact ⟨_, rfl⟩
    · simp only [scaBaseWeight, Option.getD_some, fdiv, Res.bind]
      rw [if_neg (by norm_num)]
      simp only [h5, if_false]; exact ⟨_, rfl⟩
  choose g hg using this
  unfold scaBaseRows
  rw [hmed]
  refine ⟨fun i => (rows i).map fun j => (j.1, g j.2), Res.tabulate_eq_ok.2 fun i => ?_⟩
  rw [← mapRes_ok]
  congr 1
  funext j
  rw [hg]; rfl

theorem scaRows_succeeds {ker : KernelType} (hk : ker = .Gaussian ∨ ker = .Exponential) {bw : ℝ} {σ : (Fin n → ℝ) → Equiv.Perm (Fin n)}
    (hσ : ∀ d, Sorts d (σ d)) (d : Fin m → Fin n → ℝ) (hm : 0 < m) (h1 : 1 ≤ ⌊bw⌋₊) (hn : ⌊bw⌋₊ ≤ n)
    (hr : ∀ i r, IsKthSmallest (d i) (min 50 ⌊bw⌋₊) r → 0 < r) : ∃ nei, scaRows ker bw σ d = .ok nei := by
  have hc : scaCount bw n = ⌊bw⌋₊ := by unfold scaCount; split <;> omega
  have hrows : Res.tabulate m (fun i => scaNeighbours bw σ (d i)) =
      .ok fun i => ((List.ofFn (σ (d i))).take ⌊bw⌋₊).map fun j => (j, d i j) := by
    refine Res.tabulate_eq_ok.2 fun i => ?_
    unfold scaNeighbours
    rw [hc, scaNearest_ok (by omega) hn]; rfl
  unfold scaRows
  rw [hrows]
  simp only [Res.bind, scaBandColumn, hc, if_true]
  rw [if_neg (by omega), if_pos (by omega)]
  simp only
  obtain ⟨nei, hnei⟩ := scaBaseRows_succeeds hk (fun i => ((List.ofFn (σ (d i))).take ⌊bw⌋₊).map fun j => (j, d i j))
    (col := fun i => ((((List.ofFn (σ (d i))).take ⌊bw⌋₊).map fun j => (j, d i j)).map Prod.snd)[min 50 ⌊bw⌋₊ - 1]?.getD 0) hm
    (fun i => hr i _ (by
      rw [List.map_map]
      exact sorted_kth (hσ (d i)) (by omega) (by omega) hn))
  rw [hnei]
  exact ⟨_, rfl⟩

/-- A model with an intercept only. -/
def oneCol (n : ℕ) : Matrix (Fin n) (Fin 1) ℝ := Matrix.of fun _ _ => 1

theorem oneCol_determined {w : Fin n → ℝ} {j : Fin n} (hj : 0 < w j) : Determined (oneCol n) w := by
  intro b hb
  have := hb j hj
  funext i
  have hi : i = 0 := Subsingleton.elim _ _
  subst hi
  simpa [oneCol] using this

theorem oneCol_mean {y w : Fin n → ℝ} (h : (xtwx (oneCol n) w).PosDef) :
    ((xtwx (oneCol n) w)⁻¹ *ᵥ (xtw (oneCol n) w *ᵥ y)) 0 * ∑ j, w j = ∑ j, w j * y j := by
  have e := congrFun (normal_equations (y := y) h) 0
  simp only [mulVec, dotProduct, Fin.sum_univ_one, xtwx_apply, xtw, oneCol, Matrix.of_apply, one_mul, mul_one] at e
  simp only [mulVec, dotProduct, Fin.sum_univ_one, xtw, oneCol, Matrix.of_apply, one_mul]
  rw [mul_comm]
  exact e

/-- Distances between three points at 0, 1 and 2 on a line. -/
def lineD : Fin 3 → Fin 3 → ℝ := ![![0, 1, 2], ![1, 0, 1], ![2, 1, 0]]

theorem kth_line0 : IsKthSmallest (![0, 1, 2] : Fin 3 → ℝ) 2 1 := by
  refine ⟨⟨1, rfl⟩, ?_, ?_⟩
  · have : {i : Fin 3 | (![0, 1, 2] : Fin 3 → ℝ) i < 1} = {0} := by ext i; fin_cases i <;> simp
    rw [this, Set.ncard_singleton]; norm_num
  · have : {i : Fin 3 | (![0, 1, 2] : Fin 3 → ℝ) i ≤ 1} = {0, 1} := by ext i; fin_cases i <;> simp
    rw [this, Set.ncard_pair (by decide)]

theorem kth_line1 : IsKthSmallest (![1, 0, 1] : Fin 3 → ℝ) 2 1 := by
  refine ⟨⟨0, rfl⟩, ?_, ?_⟩
  · have : {i : Fin 3 | (![1, 0, 1] : Fin 3 → ℝ) i < 1} = {1} := by ext i; fin_cases i <;> simp
    rw [this, Set.ncard_singleton]; norm_num
  · have : {i : Fin 3 | (![1, 0, 1] : Fin 3 → ℝ) i ≤ 1} = Set.univ := by ext i; fin_cases i <;> simp
    rw [this, Set.ncard_univ]; simp

theorem kth_line2 : IsKthSmallest (![2, 1, 0] : Fin 3 → ℝ) 2 1 := by
  refine ⟨⟨1, rfl⟩, ?_, ?_⟩
  · have : {i : Fin 3 | (![2, 1, 0] : Fin 3 → ℝ) i < 1} = {2} := by ext i; fin_cases i <;> simp
    rw [this, Set.ncard_singleton]; norm_num
  · have : {i : Fin 3 | (![2, 1, 0] : Fin 3 → ℝ) i ≤ 1} = {1, 2} := by ext i; fin_cases i <;> simp
    rw [this, Set.ncard_pair (by decide)]

theorem kth_far : IsKthSmallest (![4, 3, 2] : Fin 3 → ℝ) 2 3 := by
  refine ⟨⟨1, rfl⟩, ?_, ?_⟩
  · have : {i : Fin 3 | (![4, 3, 2] : Fin 3 → ℝ) i < 3} = {2} := by ext i; fin_cases i <;> norm_num <;> decide
    rw [this, Set.ncard_singleton]; norm_num
  · have : {i : Fin 3 | (![4, 3, 2] : Fin 3 → ℝ) i ≤ 3} = {1, 2} := by ext i; fin_cases i <;> norm_num <;> decide
    rw [this, Set.ncard_pair (by decide)]

theorem lineD_kth (i : Fin 3) : IsKthSmallest (lineD i) 2 1 := by
  fin_cases i
  · exact kth_line0
  · exact kth_line1
  · exact kth_line2

/-- A run on three points with responses 1, 0, 0, an intercept only, the Gaussian kernel and a bandwidth of three points; the degree, the
minimiser, the order of equal distances and the treatment of singular systems are left open. -/
def exSca (P : ℕ) (σ : (Fin 3 → ℝ) → Equiv.Perm (Fin 3)) (opt : (ℝ → ℝ → Res ℝ) → ℝ × ℝ)
    (approx : Matrix (Fin 1) (Fin 1) ℝ → (Fin 1 → ℝ) → Option (Fin 1 → ℝ)) : ScaCfg 3 1 :=
  { crit := .CV, P := P, ker := .Gaussian, bw := 3, σ := σ, opt := opt, approx := approx }

theorem mean_unit {w y : Fin n → ℝ} {t : ℝ} (hw : ∀ j, 0 ≤ w j) (hy : ∀ j, 0 ≤ y j ∧ y j ≤ 1) (hs : 0 < ∑ j, w j)
    (h : t * ∑ j, w j = ∑ j, w j * y j) : 0 ≤ t ∧ t ≤ 1 := by
  have h1 : 0 ≤ ∑ j, w j * y j := Finset.sum_nonneg fun j _ => mul_nonneg (hw j) (hy j).1
  have h2 : ∑ j, w j * y j ≤ ∑ j, w j := Finset.sum_le_sum fun j _ => by nlinarith [hw j, (hy j).2]
  constructor
  · by_contra hn; push Not at hn; nlinarith
  · by_contra hn; push Not at hn; nlinarith

theorem exSca_choose {P : ℕ} {σ : (Fin 3 → ℝ) → Equiv.Perm (Fin 3)} (hσ : ∀ d, Sorts d (σ d)) {opt : (ℝ → ℝ → Res ℝ) → ℝ × ℝ}
    (hopt : ∀ c, (opt c).1 ≠ 0) (approx : Matrix (Fin 1) (Fin 1) ℝ → (Fin 1 → ℝ) → Option (Fin 1 → ℝ)) :
    ∃ b a cv, 0 < b ∧ 0 ≤ a ∧ scaChoose (exSca P σ opt approx) (oneCol 3) ![1, 0, 0] lineD = .ok (some (b, a, cv)) := by
  obtain ⟨st, hst⟩ := (C37_works_partial (σ := σ) lineD (bw := 3) (by norm_num)).2 (Or.inr (by norm_num))
  obtain ⟨c, hc, -, hrow, hcol⟩ := scaSetup_cv hσ hst
  have hc2 : c = 2 := by rw [hc]; norm_num
  subst hc2
  obtain ⟨nei, hnei⟩ := scaBaseRows_succeeds (ker := .Gaussian) (Or.inl rfl) st.1 (col := st.2) (by norm_num) (fun i => by
    rw [IsKthSmallest.unique (hcol i) (lineD_kth i)]; norm_num)
  obtain ⟨med, hmed, hn⟩ := scaBaseRows_ok (Or.inl rfl) hnei
  set p := opt (scaCriterion .CV P (oneCol 3) ![1, 0, 0] nei approx) with hp
  have hb : 0 < p.1 * p.1 := mul_self_pos.2 (hopt _)
  have ha : 0 ≤ p.2 * p.2 := mul_self_nonneg _
  have hg : ∀ i, ∀ j ∈ nei i, 0 ≤ j.2 := by
    intro i j hj
    rw [hn] at hj
    obtain ⟨q, _, rfl⟩ := List.mem_map.1 hj
    exact scaBase_nonneg .Gaussian med q.2
  set w := fun i => polyWeight P (p.1 * p.1) (p.2 * p.2) (nei i) with hw
  have hw0 : ∀ i j, 0 ≤ w i j := fun i => polyWeight_nonneg P hb.le ha (hg i)
  have hwp : ∀ i, ∃ j, 0 < w i j := by
    intro i
    have hne := take_sorted_nearest (hσ (lineD i)) (cnt := 2) (by norm_num)
    obtain ⟨j, hj⟩ : ∃ j, j ∈ (List.ofFn (σ (lineD i))).take 2 := by
      refine List.exists_mem_of_ne_nil _ fun e => ?_
      have := hne.length
      rw [e] at this; cases this
    refine ⟨j, ?_⟩
    rw [hw]
    simp only
    rw [hn, hrow, List.map_map]
    have := polyWeight_nodup (P := P) (b := p.1 * p.1) (a := p.2 * p.2) hne.nodup (fun j => scaBase .Gaussian med (lineD i j)) j
    refine lt_of_lt_of_eq ?_ this.symm
    rw [if_pos hj]
    exact add_pos_of_nonneg_of_pos ha (polyKernel_pos P hb (scaBase_nonneg ..))
  have hpd : ∀ i, (xtwx (oneCol 3) (w i)).PosDef := fun i =>
    (gram_posDef_iff_determined _ _ (hw0 i)).2 (oneCol_determined (hwp i).choose_spec)
  have hu : ∀ i, IsUnit (xtwx (oneCol 3) (w i)).det := fun i => (isUnit_iff_isUnit_det _).1 (hpd i).isUnit
  have hcr : ∃ cv, scaCriterion .CV P (oneCol 3) ![1, 0, 0] nei approx p.1 p.2 = .ok cv ∧ cv < dblMax := by
    have hs : Res.tabulate 3 (fun i => scaSystem P (oneCol 3) ![1, 0, 0] (nei i) (p.1 * p.1) (p.2 * p.2)) =
        .ok fun i => (xtwx (oneCol 3) (w i), xtw (oneCol 3) (w i) *ᵥ ![1, 0, 0]) :=
      Res.tabulate_eq_ok.2 fun i => scaSystem_eq hb
    unfold scaCriterion scaLoocv
    simp only [hs, Res.bind, hu, if_true, Option.isSome_some, implies_true, Option.getD_some, Res.ok.injEq, exists_eq_left']
    refine lt_of_le_of_lt (b := (3 : ℝ)) ?_ (by linarith [hundred_lt_dblMax])
    refine (Finset.sum_le_card_nsmul _ _ 1 fun i _ => ?_).trans (by simp)
    obtain ⟨j, hj⟩ := hwp i
    have hm := mean_unit (y := ![1, 0, 0]) (hw0 i) (fun j => by fin_cases j <;> simp)
      (Finset.sum_pos' (fun j _ => hw0 i j) ⟨j, Finset.mem_univ _, hj⟩) (oneCol_mean (hpd i))
    have e : ∀ v : Fin 1 → ℝ, oneCol 3 i ⬝ᵥ v = v 0 := by intro v; simp [dotProduct, oneCol]
    rw [e]
    set t := ((xtwx (oneCol 3) (w i))⁻¹ *ᵥ (xtw (oneCol 3) (w i) *ᵥ ![1, 0, 0])) 0
    have hy : (![1, 0, 0] : Fin 3 → ℝ) i = 0 ∨ (![1, 0, 0] : Fin 3 → ℝ) i = 1 := by fin_cases i <;> simp
    rcases hy with h | h <;> rw [h] <;> nlinarith [hm.1, hm.2]
  obtain ⟨cv, hcv, hlt⟩ := hcr
  refine ⟨p.1 * p.1, p.2 * p.2, cv, hb, ha, ?_⟩
  unfold scaChoose exSca
  simp only [true_or, if_true]
  rw [hst]
  simp only [Res.bind]
  rw [hnei]
  simp only [← hp, hcv, hlt, if_true]

theorem scaPredict_some {u : ScaCfg n k} {x : Matrix (Fin n) (Fin k) ℝ} {y : Fin n → ℝ} {D : Fin n → Fin n → ℝ} {b a cv : ℝ}
    (hb : 0 < b) (ha : 0 ≤ a) (hc : scaChoose u x y D = .ok (some (b, a, cv))) {d : Fin m → Fin n → ℝ} {nei : Fin m → NeiRow n}
    (hn : scaRows u.ker (scaBw u.bw n) u.σ d = .ok nei) (hg : ∀ i, ∀ j ∈ nei i, 0 ≤ j.2)
    (hd : ∀ i, Determined x (polyWeight u.P b a (nei i))) :
    scaPredict u x y D d = .ok (some (Matrix.of fun i => (xtwx x (polyWeight u.P b a (nei i)))⁻¹ *ᵥ
      (xtw x (polyWeight u.P b a (nei i)) *ᵥ y))) := by
  have hw := fun i => polyWeight_nonneg u.P hb.le ha (hg i)
  have : Res.tabulate m (fun i => (scaSystem u.P x y (nei i) b a).bind fun s => scaSolve s.1 s.2) =
      .ok fun i => (xtwx x (polyWeight u.P b a (nei i)))⁻¹ *ᵥ (xtw x (polyWeight u.P b a (nei i)) *ᵥ y) := by
    refine Res.tabulate_eq_ok.2 fun i => ?_
    rw [scaSystem_eq hb]
    simp only [Res.bind]
    rw [scaSolve_gram (hw i), if_pos ((gram_posDef_iff_determined x _ (hw i)).2 (hd i))]
  unfold scaPredict
  rw [hc]
  change (scaRows u.ker (scaBw u.bw n) u.σ d).bind _ = _
  rw [hn]
  change (Res.tabulate m (fun i => (scaSystem u.P x y (nei i) b a).bind fun s => scaSolve s.1 s.2)).bind _ = _
  rw [this]
  rfl

theorem nearest_line {l : List (Fin 3)} (h : IsNearest (![0, 1, 2] : Fin 3 → ℝ) 2 l) : 0 ∈ l ∧ 1 ∈ l ∧ 2 ∉ l := by
  have h2 : 2 ∉ l := by
    intro h2
    have h0 : 0 ∈ l := by
      by_contra h0
      have : (2 : ℝ) ≤ 0 := h.nearest 2 h2 0 h0
      norm_num at this
    have h1 : 1 ∈ l := by
      by_contra h1
      have : (2 : ℝ) ≤ 1 := h.nearest 2 h2 1 h1
      norm_num at this
    have hs : ({0, 1, 2} : Finset (Fin 3)) ⊆ l.toFinset := by
      intro j hj; rw [List.mem_toFinset]; fin_cases j <;> assumption
    have := (Finset.card_le_card hs).trans (List.toFinset_card_le l)
    rw [h.length] at this
    exact absurd this (by decide)
  have hc : l.toFinset.card = 2 := by rw [List.toFinset_card_of_nodup h.nodup, h.length]
  have hsub : l.toFinset ⊆ ({0, 1} : Finset (Fin 3)) := by
    intro j hj
    rw [List.mem_toFinset] at hj
    fin_cases j
    · decide
    · decide
    · exact absurd hj h2
  have he := Finset.eq_of_subset_of_card_le hsub (by rw [hc]; decide)
  refine ⟨?_, ?_, h2⟩
  · rw [← List.mem_toFinset, he]; decide
  · rw [← List.mem_toFinset, he]; decide

/-- **C101 (scalable regression), refuted.** Three observations at 0, 1 and 2 with responses 1, 0, 0, an intercept only, any degree of at
least 1 and whatever parameters the minimiser picks (a scale other than 0): predicting at location 0 alone and predicting at locations 0 and
4 together give different coefficients at location 0. -/
theorem C101_scalable_depends_on_other_locations {P : ℕ} (hP : 1 ≤ P) {σ : (Fin 3 → ℝ) → Equiv.Perm (Fin 3)}
    (hσ : ∀ d, Sorts d (σ d)) {opt : (ℝ → ℝ → Res ℝ) → ℝ × ℝ} (hopt : ∀ c, (opt c).1 ≠ 0)
    (approx : Matrix (Fin 1) (Fin 1) ℝ → (Fin 1 → ℝ) → Option (Fin 1 → ℝ)) :
    ∃ B1 B2, scaPredict (exSca P σ opt approx) (oneCol 3) ![1, 0, 0] lineD (![![0, 1, 2]] : Fin 1 → Fin 3 → ℝ) = .ok (some B1) ∧
      scaPredict (exSca P σ opt approx) (oneCol 3) ![1, 0, 0] lineD (![![0, 1, 2], ![4, 3, 2]] : Fin 2 → Fin 3 → ℝ) = .ok (some B2) ∧
      B1 0 0 ≠ B2 0 0 := by
  obtain ⟨b, a, cv, hb, ha, hc⟩ := exSca_choose (P := P) hσ hopt approx
  have hbw : ⌊((scaBw (exSca P σ opt approx).bw 3 : ℕ) : ℝ)⌋₊ = 2 := by
    rw [Nat.floor_natCast]; unfold scaBw exSca; norm_num
  have key : ∀ {m : ℕ} (d : Fin m → Fin 3 → ℝ) (i0 : Fin m) (med : ℝ), d i0 = ![0, 1, 2] →
      (∀ i r, IsKthSmallest (d i) 2 r → 0 < r) →
      (∀ r, (∀ i, IsKthSmallest (d i) 2 (r i)) → ∀ q, IsMedian r q → q = med) →
      ∃ B, scaPredict (exSca P σ opt approx) (oneCol 3) ![1, 0, 0] lineD d = .ok (some B) ∧
        B i0 0 * (3 * a + polyKernel P b (baseGauss med 0) + polyKernel P b (baseGauss med 1)) = a + polyKernel P b (baseGauss med 0) := by
    intro m d i0 med h0 hpos hmed
    obtain ⟨nei, hnei⟩ := scaRows_succeeds (ker := .Gaussian) (Or.inl rfl) hσ d i0.pos
      (bw := (scaBw (exSca P σ opt approx).bw 3 : ℕ)) (by rw [hbw]; norm_num) (by rw [hbw]; norm_num) (by rw [hbw]; exact hpos)
    obtain ⟨⟨r, q, hr, hq, hW⟩, hg⟩ := scaRows_ok (Or.inl rfl) hσ hnei P b a
    rw [hbw] at hr hW
    have hqm := hmed r hr q hq
    subst hqm
    have hwp : ∀ i, ∃ j, 0 < polyWeight P b a (nei i) j := by
      intro i
      obtain ⟨l, hl, hw⟩ := hW i
      obtain ⟨j, hj⟩ : ∃ j, j ∈ l := by
        refine List.exists_mem_of_ne_nil _ fun e => ?_
        have := hl.length
        rw [e] at this; cases this
      refine ⟨j, ?_⟩
      rw [show polyWeight P b a (nei i) j = _ from hw j, if_pos hj]
      exact add_pos_of_nonneg_of_pos ha (polyKernel_pos P hb (scaBase_nonneg ..))
    refine ⟨_, scaPredict_some hb ha hc hnei hg fun i => oneCol_determined (hwp i).choose_spec, ?_⟩
    have hpd := (gram_posDef_iff_determined (oneCol 3) _ (polyWeight_nonneg P hb.le ha (hg i0))).2 (oneCol_determined (hwp i0).choose_spec)
    have hmean := oneCol_mean (y := ![1, 0, 0]) hpd
    obtain ⟨l, hl, hw⟩ := hW i0
    rw [h0] at hl hw
    obtain ⟨l0, l1, l2⟩ := nearest_line hl
    have w0 : polyWeight P b a (nei i0) 0 = _ := hw 0
    have w1 : polyWeight P b a (nei i0) 1 = _ := hw 1
    have w2 : polyWeight P b a (nei i0) 2 = _ := hw 2
    rw [if_pos l0] at w0
    rw [if_pos l1] at w1
    rw [if_neg l2] at w2
    show ((xtwx (oneCol 3) (polyWeight P b a (nei i0)))⁻¹ *ᵥ (xtw (oneCol 3) (polyWeight P b a (nei i0)) *ᵥ ![1, 0, 0])) 0 * _ = _
    generalize ((xtwx (oneCol 3) (polyWeight P b a (nei i0)))⁻¹ *ᵥ (xtw (oneCol 3) (polyWeight P b a (nei i0)) *ᵥ ![1, 0, 0])) 0 = t
      at hmean ⊢
    simp only [Fin.sum_univ_three, w0, w1, w2] at hmean
    simp only [scaBase, if_true] at hmean
    have e0 : (![0, 1, 2] : Fin 3 → ℝ) 0 = 0 := rfl
    have e1 : (![0, 1, 2] : Fin 3 → ℝ) 1 = 1 := rfl
    have f0 : (![1, 0, 0] : Fin 3 → ℝ) 0 = 1 := rfl
    have f1 : (![1, 0, 0] : Fin 3 → ℝ) 1 = 0 := rfl
    have f2 : (![1, 0, 0] : Fin 3 → ℝ) 2 = 0 := rfl
    rw [e0, e1, f0, f1, f2] at hmean
    linarith
  obtain ⟨B1, h1, e1⟩ := key ![![0, 1, 2]] 0 1 rfl (by
    intro i r hr; fin_cases i
    rw [IsKthSmallest.unique hr kth_line0]; norm_num) (by
    rintro r hr q ⟨lo, hi, ⟨⟨i, rfl⟩, _⟩, ⟨⟨j, rfl⟩, _⟩, rfl⟩
    have hi : ∀ i, r i = 1 := by intro i; fin_cases i; exact IsKthSmallest.unique (hr 0) kth_line0
    rw [hi, hi]; norm_num)
  obtain ⟨B2, h2, e2⟩ := key ![![0, 1, 2], ![4, 3, 2]] 0 2 rfl (by
    intro i r hr; fin_cases i
    · rw [IsKthSmallest.unique hr kth_line0]; norm_num
    · rw [IsKthSmallest.unique hr kth_far]; norm_num) (by
    rintro r hr q ⟨lo, hi, hlo, hhi, rfl⟩
    have r0 : r 0 = 1 := IsKthSmallest.unique (hr 0) kth_line0
    have r1 : r 1 = 3 := IsKthSmallest.unique (hr 1) kth_far
    have hr' : r = ![1, 3] := by funext i; fin_cases i <;> assumption
    subst hr'
    have k1 : IsKthSmallest (![1, 3] : Fin 2 → ℝ) 1 1 := by
      refine ⟨⟨0, rfl⟩, ?_, ?_⟩
      · have : {i : Fin 2 | (![1, 3] : Fin 2 → ℝ) i < 1} = ∅ := by ext i; fin_cases i <;> norm_num
        rw [this, Set.ncard_empty]; norm_num
      · have : {i : Fin 2 | (![1, 3] : Fin 2 → ℝ) i ≤ 1} = {0} := by ext i; fin_cases i <;> norm_num
        rw [this, Set.ncard_singleton]
    have k2 : IsKthSmallest (![1, 3] : Fin 2 → ℝ) 2 3 := by
      refine ⟨⟨1, rfl⟩, ?_, ?_⟩
      · have : {i : Fin 2 | (![1, 3] : Fin 2 → ℝ) i < 3} = {0} := by ext i; fin_cases i <;> norm_num
        rw [this, Set.ncard_singleton]; norm_num
      · have : {i : Fin 2 | (![1, 3] : Fin 2 → ℝ) i ≤ 3} = {0, 1} := by ext i; fin_cases i <;> norm_num
        rw [this, Set.ncard_pair (by decide)]
    rw [IsKthSmallest.unique hlo k1, IsKthSmallest.unique hhi k2]; norm_num)
  refine ⟨B1, B2, h1, h2, fun e => ?_⟩
  have g0 : baseGauss 1 0 = 1 := by simp [baseGauss]
  have g0' : baseGauss 2 0 = 1 := by simp [baseGauss]
  rw [g0] at e1
  rw [g0'] at e2
  rw [e] at e1
  have hlt : baseGauss 1 1 < baseGauss 2 1 := by unfold baseGauss; exact Real.exp_lt_exp.2 (by norm_num)
  have hK := polyKernel_strictMono hP hb (by unfold baseGauss; positivity) hlt
  have hK1 := polyKernel_pos P hb (g := 1) zero_le_one
  have : B2 0 0 * (polyKernel P b (baseGauss 2 1) - polyKernel P b (baseGauss 1 1)) = 0 := by linarith
  rcases mul_eq_zero.1 this with h | h
  · rw [h] at e2; linarith
  · linarith

theorem ex_sca_fit {P : ℕ} {σ : (Fin 3 → ℝ) → Equiv.Perm (Fin 3)} (hσ : ∀ d, Sorts d (σ d)) {opt : (ℝ → ℝ → Res ℝ) → ℝ × ℝ}
    (hopt : ∀ c, (opt c).1 ≠ 0) (approx : Matrix (Fin 1) (Fin 1) ℝ → (Fin 1 → ℝ) → Option (Fin 1 → ℝ)) :
    ∃ r, scaFit (exSca P σ opt approx) (oneCol 3) ![1, 0, 0] lineD = .ok (some r) := by
  obtain ⟨b, a, cv, hb, ha, hc⟩ := exSca_choose (P := P) hσ hopt approx
  have hbw : ⌊((scaBw (exSca P σ opt approx).bw 3 : ℕ) : ℝ)⌋₊ = 2 := by
    rw [Nat.floor_natCast]; unfold scaBw exSca; norm_num
  obtain ⟨nei, hnei⟩ := scaRows_succeeds (ker := .Gaussian) (Or.inl rfl) hσ lineD (by norm_num)
    (bw := (scaBw (exSca P σ opt approx).bw 3 : ℕ)) (by rw [hbw]; norm_num) (by rw [hbw]; norm_num)
    (by rw [hbw]; intro i r hr; rw [IsKthSmallest.unique hr (lineD_kth i)]; norm_num)
  obtain ⟨-, hg⟩ := scaRows_ok (Or.inl rfl) hσ hnei P b a
  choose beta hbeta using fun i => C36_coefficients (P := P) (oneCol 3) ![1, 0, 0] hb ha (hg i)
  have ht : ∀ i, ∃ t, scaTraceRow P (oneCol 3) ![1, 0, 0] (nei i) b a i = .ok t := by
    intro i
    unfold scaTraceRow
    rw [scaSystem_eq hb]
    simp only [Res.bind]
    split <;> exact ⟨_, rfl⟩
  choose t ht using ht
  unfold scaFit
  rw [hc]
  change ∃ r, (scaRows KernelType.Gaussian (scaBw (exSca P σ opt approx).bw 3 : ℕ) σ lineD).bind _ = _
  rw [hnei]
  change ∃ r, (Res.tabulate 3 fun i => scaFitRow P (oneCol 3) ![1, 0, 0] (nei i) b a).bind _ = _
  rw [Res.tabulate_eq_ok.2 fun i => (hbeta i).1]
  change ∃ r, (Res.tabulate 3 fun i => scaTraceRow P (oneCol 3) ![1, 0, 0] (nei i) b a i).bind _ = _
  rw [Res.tabulate_eq_ok.2 ht]
  exact ⟨_, rfl⟩

/-- The hypotheses of `C100_fit_is_scalable_regression`, `C100_cv_value` and of the theorems on predictions are met by this run, for any
sorting permutation and a minimiser that stays at its starting point. -/
example {σ : (Fin 3 → ℝ) → Equiv.Perm (Fin 3)} (hσ : ∀ d, Sorts d (σ d)) :
    (∃ r, scaFit (exSca 4 σ (fun _ => (1, 1 / 100)) fun _ _ => none) (oneCol 3) ![1, 0, 0] lineD = .ok (some r)) ∧
    (∃ B, scaPredict (exSca 4 σ (fun _ => (1, 1 / 100)) fun _ _ => none) (oneCol 3) ![1, 0, 0] lineD ![![0, 1, 2]] = .ok (some B)) := by
  refine ⟨ex_sca_fit hσ (fun _ => one_ne_zero) _, ?_⟩
  obtain ⟨B, _, h, -⟩ := C101_scalable_depends_on_other_locations (P := 4) (by norm_num) hσ (opt := fun _ => (1, 1 / 100))
    (fun _ => one_ne_zero) fun _ _ => none
  exact ⟨B, h⟩

end Verif.Props

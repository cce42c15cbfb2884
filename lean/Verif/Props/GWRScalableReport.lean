import Verif.Model.GWRScalableReport
import Verif.Spec.ScalableReport
import Verif.Props.GWRScalableRun
import Verif.Props.RobustRun
import Verif.Props.GWRInvariance

/-! # C122: traces, diagnostics and standard errors of scalable regression -/

namespace Verif.Props
open Verif Verif.Model Verif.Spec Matrix Classical

variable {m n k P : ℕ}

theorem crossProduct_eq (x : Matrix (Fin n) (Fin k) ℝ) (w : Fin n → ℝ) : crossProduct x w = xtwx x w := by
  ext a b
  rw [xtwx_apply, crossProduct, Matrix.of_apply]
  exact Finset.sum_congr rfl fun l _ => by ring

theorem tableXX_slot (x : Matrix (Fin n) (Fin k) ℝ) (nei : NeiRow n) (k1 : Fin k) (p : Fin (P + 1)) (k2 : Fin k) :
    tableXX P x nei (slotRead P k k1 p k2) = (nei.map fun j => x j.1 k1 * scaG P p j.2 * scaG P p j.2 * x j.1 k2).sum := by
  rw [slotRead_eq_slotWrite]
  exact foldl_update (fun q : Fin k × Fin (P + 1) × Fin k => slotWrite P k q.1 q.2.1 q.2.2)
    (fun q => (nei.map fun j => x j.1 q.1 * scaG P q.2.1 j.2 * scaG P q.2.1 j.2 * x j.1 q.2.2).sum) _ _
    (nodup_writeOrder.map C36_slots.2.1) (k1, p, k2) (mem_writeOrder _)

theorem polySquares_eq (P : ℕ) (b g : ℝ) :
    polySquares P b g = ∑ p : Fin (P + 1), (scaPow b p / (∑ p : Fin (P + 1), scaPow b p)) ^ 2 * (scaG P p g * scaG P p g) := by
  have h : ∑ p : Fin (P + 1), (scaPow b p * scaG P p g) ^ 2 =
      b ^ 2 + ∑ q ∈ Finset.Icc 1 P, (b ^ (q + 1) * g ^ ((2 : ℝ) ^ ((P : ℝ) / 2) / 2 ^ q)) ^ 2 := by
    rw [← Finset.sum_range (f := fun p => (scaPow b p * scaG P p g) ^ 2), Finset.range_eq_Ico,
      Finset.sum_eq_sum_Ico_succ_bot (Nat.succ_pos P)]
    congr 1
    · simp [scaPow, scaG]
    · refine Finset.sum_congr (by ext q; simp only [Finset.mem_Ico, Finset.mem_Icc]; omega) fun q hq => ?_
      have : q ≠ 0 := by simp at hq; omega
      simp [scaPow, scaG, this]
  unfold polySquares
  rw [← h, ← total_eq, Finset.sum_div]
  exact Finset.sum_congr rfl fun p _ => by ring

/-- The weights in place of the squares, for a list of neighbours. -/
noncomputable def polyWeight2 (P : ℕ) (b a : ℝ) (nei : NeiRow n) (l : Fin n) : ℝ :=
  a ^ 2 + ((nei.filter fun j => j.1 = l).map fun j => 2 * a * polyKernel P b j.2 + polySquares P b j.2).sum

theorem sum_listed (f : ℝ → ℝ) (nei : NeiRow n) (g : Fin n → ℝ) (c : ℝ) :
    (nei.map fun j => f j.2 * g j.1).sum + c * ∑ l, g l =
      ∑ l, (c + ((nei.filter fun j => j.1 = l).map fun j => f j.2).sum) * g l := by
  induction nei with
  | nil => simp [Finset.mul_sum]
  | cons j nei ih =>
    have e : ∀ l, (((j :: nei).filter fun j => j.1 = l).map fun j => f j.2).sum =
        ((nei.filter fun j => j.1 = l).map fun j => f j.2).sum + if j.1 = l then f j.2 else 0 := by
      intro l
      by_cases h : j.1 = l
      · rw [List.filter_cons_of_pos (by simpa using h)]; simp [h]; ring
      · rw [List.filter_cons_of_neg (by simpa using h)]; simp [h]
    simp only [e, ← add_assoc, add_mul, Finset.sum_add_distrib, List.map_cons, List.sum_cons, ite_mul, zero_mul, Finset.sum_ite_eq,
      Finset.mem_univ, if_true] at ih ⊢
    linarith

theorem combine2 (P : ℕ) (b a : ℝ) (nei : NeiRow n) (u v : Fin n → ℝ) :
    ∑ p : Fin (P + 1), (2 * a * (scaPow b p / (∑ p : Fin (P + 1), scaPow b p) * (nei.map fun j => u j.1 * scaG P p j.2 * v j.1).sum) +
      scaPow b p / (∑ p : Fin (P + 1), scaPow b p) * (scaPow b p / (∑ p : Fin (P + 1), scaPow b p)) *
        (nei.map fun j => u j.1 * scaG P p j.2 * scaG P p j.2 * v j.1).sum) =
      (nei.map fun j => (2 * a * polyKernel P b j.2 + polySquares P b j.2) * (u j.1 * v j.1)).sum := by
  rw [Finset.sum_add_distrib, ← Finset.mul_sum, combine P b nei u v]
  simp only [← List.sum_map_mul_left]
  rw [sum_map_sum, ← List.sum_map_add]
  congr 1
  refine List.map_congr_left fun j _ => ?_
  rw [polySquares_eq, add_mul, Finset.sum_mul]
  congr 1
  · ring
  · exact Finset.sum_congr rfl fun p _ => by ring

theorem scaSystem2_eq {x : Matrix (Fin n) (Fin k) ℝ} {nei : NeiRow n} {b a : ℝ} (hb : 0 < b) :
    scaSystem2 P x nei b a = .ok (crossProduct x (polyWeight2 P b a nei)) := by
  have ht : ∑ p : Fin (P + 1), scaPow b p ≠ 0 := by rw [total_eq]; exact (total_pos P hb).ne'
  unfold scaSystem2
  simp only [ht, if_false, Res.ok.injEq]
  ext k1 k2
  simp only [Matrix.add_apply, Matrix.of_apply, coefX_slot, tableX_slot, tableXX_slot, Matrix.smul_apply, smul_eq_mul, Matrix.mul_apply,
    Matrix.transpose_apply, crossProduct, combine2 P b a nei (fun l => x l k1) (fun l => x l k2)]
  rw [sum_listed (fun g => 2 * a * polyKernel P b g + polySquares P b g) nei (fun l => x l k1 * x l k2)]
  refine Finset.sum_congr rfl fun l _ => ?_
  simp only [polyWeight2, sq]

theorem polySquares_nonneg (P : ℕ) (b g : ℝ) : 0 ≤ polySquares P b g := by unfold polySquares; positivity

theorem polyWeight2_nonneg {b a : ℝ} (hb : 0 ≤ b) (ha : 0 ≤ a) {nei : NeiRow n} (hg : ∀ j ∈ nei, 0 ≤ j.2) (l : Fin n) :
    0 ≤ polyWeight2 P b a nei l := by
  refine add_nonneg (sq_nonneg a) (List.sum_nonneg ?_)
  intro v hv
  obtain ⟨j, hj, rfl⟩ := List.mem_map.1 hv
  have := polyKernel_nonneg P hb (hg j (List.mem_filter.1 hj).1)
  have := polySquares_nonneg P b j.2
  positivity

theorem polyWeight2_nodup {P : ℕ} {b a : ℝ} {l : List (Fin n)} (hl : l.Nodup) (g : Fin n → ℝ) (t : Fin n) :
    polyWeight2 P b a (l.map fun j => (j, g j)) t =
      a ^ 2 + if t ∈ l then 2 * a * polyKernel P b (g t) + polySquares P b (g t) else 0 := by
  unfold polyWeight2
  congr 1
  rw [List.filter_map, List.map_map]
  have : (l.filter ((fun j : Fin n × ℝ => decide (j.1 = t)) ∘ fun j => (j, g j))) = l.filter (fun j => decide (j = t)) := rfl
  rw [this]
  by_cases ht : t ∈ l
  · have : l.filter (fun j => decide (j = t)) = [t] := by
      have e := List.filter_beq (l := l) (a := t)
      rw [List.count_eq_one_of_mem hl ht, List.replicate_one] at e
      rw [← e]
      rfl
    rw [this, if_pos ht]; simp
  · have : l.filter (fun j => decide (j = t)) = [] := by
      rw [List.filter_eq_nil_iff]; intro j hj; simp only [decide_eq_true_eq]; rintro rfl; exact ht hj
    rw [this, if_neg ht]; simp

theorem scaRows_pair {ker : KernelType} (hk : ker = .Gaussian ∨ ker = .Exponential) {bw : ℝ} {σ : (Fin n → ℝ) → Equiv.Perm (Fin n)}
    (hσ : ∀ d, Sorts d (σ d)) {d : Fin m → Fin n → ℝ} {nei : Fin m → NeiRow n} (h : scaRows ker bw σ d = .ok nei) (P : ℕ) (b a : ℝ) :
    ScalablePair (scaBase ker) d ⌊bw⌋₊ P b a (fun i => polyWeight P b a (nei i)) (fun i => polyWeight2 P b a (nei i)) ∧
      ∀ i, ∀ j ∈ nei i, 0 ≤ j.2 := by
  obtain ⟨rows, hr, h⟩ := Res.bind_eq_ok'.1 h
  obtain ⟨col, hcol, h⟩ := Res.bind_eq_ok'.1 h
  obtain ⟨nei', hnei, h⟩ := Res.bind_eq_ok'.1 h
  have hc : scaCount bw n = ⌊bw⌋₊ := by by_contra hc; rw [if_neg hc] at h; cases h
  rw [if_pos hc] at h
  cases Res.ok.inj h
  have hr := Res.tabulate_eq_ok.1 hr
  unfold scaBandColumn at hcol
  by_cases h0 : ⌊bw⌋₊ = 0
  · rw [if_pos h0] at hcol; cases hcol
  rw [if_neg h0, if_pos (by omega)] at hcol
  have hle : ⌊bw⌋₊ ≤ n := hc ▸ scaCount_le bw n
  have hrow : ∀ i, rows i = ((List.ofFn (σ (d i))).take ⌊bw⌋₊).map fun j => (j, d i j) := by
    intro i
    have := hr i
    unfold scaNeighbours at this
    rw [hc, scaNearest_ok h0 hle] at this
    exact (Res.ok.inj this).symm
  obtain ⟨med, hmed, hn⟩ := scaBaseRows_ok hk hnei
  refine ⟨⟨col, med, fun i => ?_, hmed, fun i => ⟨_, take_sorted_nearest (hσ (d i)) hle, fun j => ⟨?_, ?_⟩⟩⟩, fun i j hj => ?_⟩
  · rw [← Res.ok.inj hcol]
    simp only [hrow, List.map_map]
    exact sorted_kth (hσ (d i)) (by omega) (by omega) hle
  · show polyWeight P b a (nei i) j = _
    rw [hn, hrow, List.map_map]
    exact polyWeight_nodup ((take_sorted_nearest (hσ (d i)) hle).nodup) (fun j => scaBase ker med (d i j)) j
  · show polyWeight2 P b a (nei i) j = _
    rw [hn, hrow, List.map_map]
    exact polyWeight2_nodup ((take_sorted_nearest (hσ (d i)) hle).nodup) (fun j => scaBase ker med (d i j)) j
  · rw [hn] at hj
    obtain ⟨q, _, rfl⟩ := List.mem_map.1 hj
    exact scaBase_nonneg ..

theorem invGeneral_square {x : Matrix (Fin n) (Fin k) ℝ} {w : Fin n → ℝ} (h : (xtwx x w).PosDef) :
    invGeneral ((xtwx x w)ᵀ * xtwx x w) = .ok (crossProduct x w * crossProduct x w)⁻¹ := by
  have hu : IsUnit (xtwx x w).det := (isUnit_iff_isUnit_det _).1 h.isUnit
  have hT : (xtwx x w)ᵀ = xtwx x w := by
    have := h.isHermitian
    rwa [IsHermitian, conjTranspose_eq_transpose_of_trivial] at this
  have hu2 : IsUnit ((xtwx x w)ᵀ * xtwx x w).det := by rw [hT, det_mul]; exact hu.mul hu
  unfold invGeneral
  rw [if_pos hu2, hT, crossProduct_eq]

theorem spread_nonneg {x : Matrix (Fin n) (Fin k) ℝ} {v : Fin n → ℝ} (hv : ∀ l, 0 ≤ v l) {r : Matrix (Fin k) (Fin k) ℝ} (hr : rᵀ = r) (j : Fin k) :
    0 ≤ (r * crossProduct x v * r) j j := by
  have hp : (crossProduct x v).PosSemidef := by
    have : crossProduct x v = xᵀ * diagonal v * x := by
      ext a b
      rw [mul_apply]
      simp only [crossProduct, of_apply, mul_diagonal, transpose_apply]
      exact Finset.sum_congr rfl fun l _ => by ring
    rw [this, ← conjTranspose_eq_transpose_of_trivial]
    exact (PosSemidef.diagonal hv).conjTranspose_mul_mul_same x
  have h := hp.conjTranspose_mul_mul_same r
  rw [conjTranspose_eq_transpose_of_trivial, hr] at h
  exact h.diag_nonneg

/-- What a fit of scalable regression with the weights `W` and the values `V` in place of their squares reports. -/
structure IsScalableReport (x : Matrix (Fin n) (Fin k) ℝ) (y : Fin n → ℝ) (W V : Fin n → Fin n → ℝ) (r : ScaReport n k) : Prop where
  betas : ∀ i, IsWLS x y (W i) (r.fit.betas i)
  trS : r.fit.trS = scalableTrace x W
  trStS : r.trStS = scalableTrace2 x W V
  rss : r.diagnostic.RSS = residualSS x y r.fit.betas
  enp : r.diagnostic.ENP = 2 * scalableTrace x W - scalableTrace2 x W V
  edf : r.diagnostic.EDF = n - 2 * scalableTrace x W + scalableTrace2 x W V
  aic : 0 < residualSS x y r.fit.betas → r.diagnostic.AIC = .ok (aicFormula n (residualSS x y r.fit.betas) (scalableTrace x W))
  aicc : 0 < residualSS x y r.fit.betas → scalableTrace x W ≠ n - 2 →
    r.diagnostic.AICc = .ok (aiccFormula n (residualSS x y r.fit.betas) (scalableTrace x W))
  rSquare : totalSS y ≠ 0 → r.diagnostic.RSquare = .ok (1 - residualSS x y r.fit.betas / totalSS y)
  se : 0 < n - 2 * scalableTrace x W + scalableTrace2 x W V → ∀ i j,
    r.se i j = .ok √(residualSS x y r.fit.betas / (n - 2 * scalableTrace x W + scalableTrace2 x W V) * scalableSpread x W V i j)

theorem report_core {u : ScaCfg n k} (hσ : ∀ d, Sorts d (u.σ d)) {x : Matrix (Fin n) (Fin k) ℝ} {y : Fin n → ℝ}
    {D : Fin n → Fin n → ℝ} {r : ScaReport n k} (h : scaRun u x y D = .ok (some r)) :
    scaFit u x y D = .ok (some r.fit) ∧ ∃ nei, scaRows u.ker (scaBw u.bw n) u.σ D = .ok nei ∧
      ScalablePair (if u.ker = .Gaussian then baseGauss else baseExp) D (min ⌊u.bw⌋₊ (n - 1)) u.P r.fit.scale r.fit.penalty
        (fun i => polyWeight u.P r.fit.scale r.fit.penalty (nei i)) (fun i => polyWeight2 u.P r.fit.scale r.fit.penalty (nei i)) ∧
      ((∀ i, Determined x (polyWeight u.P r.fit.scale r.fit.penalty (nei i))) →
        IsScalableReport x y (fun i => polyWeight u.P r.fit.scale r.fit.penalty (nei i))
          (fun i => polyWeight2 u.P r.fit.scale r.fit.penalty (nei i)) r) := by
  obtain ⟨f, hf, h⟩ := Res.bind_eq_ok'.1 h
  match f, hf, h with
  | none, _, h => cases h
  | some f, hf, h =>
    obtain ⟨nei, hn, h⟩ := Res.bind_eq_ok'.1 h
    obtain ⟨t, ht, h⟩ := Res.bind_eq_ok'.1 h
    cases Option.some.inj (Res.ok.inj h)
    refine ⟨hf, ?_⟩
    unfold scaFit at hf
    obtain ⟨c, hc, h⟩ := Res.bind_eq_ok'.1 hf
    match c, hc, h with
    | none, _, h => cases h
    | some (b, a, cv), hc, h =>
      obtain ⟨hk, st, nei0, bt, al, -, -, -, hcv, rfl, rfl, -⟩ := scaChoose_ok hc
      obtain ⟨nei', hn', h⟩ := Res.bind_eq_ok'.1 h
      rw [hn] at hn'
      cases Res.ok.inj hn'
      obtain ⟨betas, hb, h⟩ := Res.bind_eq_ok'.1 h
      obtain ⟨tr, htr, h⟩ := Res.bind_eq_ok'.1 h
      cases Option.some.inj (Res.ok.inj h)
      obtain ⟨hw, hg⟩ := scaRows_pair hk hσ hn u.P (bt * bt) (al * al)
      have hq : ⌊((scaBw u.bw n : ℕ) : ℝ)⌋₊ = min ⌊u.bw⌋₊ (n - 1) := by
        rw [Nat.floor_natCast]; unfold scaBw; split <;> omega
      rw [hq] at hw
      refine ⟨_, hn, hw, fun hd => ?_⟩
      have hpos : 0 < n → 0 < bt * bt := fun h0 => by
        obtain ⟨s, hs, -⟩ := Res.bind_eq_ok'.1 (Res.tabulate_eq_ok.1 hb ⟨0, h0⟩)
        exact scaSystem_scale hs
      have hW : ∀ i l, 0 ≤ polyWeight u.P (bt * bt) (al * al) (nei i) l := fun i =>
        polyWeight_nonneg u.P (hpos i.pos).le (mul_self_nonneg al) (hg i)
      have hV : ∀ i l, 0 ≤ polyWeight2 u.P (bt * bt) (al * al) (nei i) l := fun i =>
        polyWeight2_nonneg (hpos i.pos).le (mul_self_nonneg al) (hg i)
      have hp : ∀ i, (xtwx x (polyWeight u.P (bt * bt) (al * al) (nei i))).PosDef := fun i =>
        (gram_posDef_iff_determined x _ (hW i)).2 (hd i)
      have hT : ∑ i, tr i = scalableTrace x fun i => polyWeight u.P (bt * bt) (al * al) (nei i) := by
        refine Finset.sum_congr rfl fun i _ => ?_
        have := Res.tabulate_eq_ok.1 htr i
        unfold scaTraceRow at this
        rw [scaSystem_eq (hpos i.pos)] at this
        simp only [Res.bind, invGeneral_square (hp i)] at this
        exact (Res.ok.inj this).symm
      have ht' : ∀ i, t i = ((crossProduct x (polyWeight u.P (bt * bt) (al * al) (nei i)) *
            crossProduct x (polyWeight u.P (bt * bt) (al * al) (nei i)))⁻¹ *ᵥ x i ⬝ᵥ
          (crossProduct x (polyWeight2 u.P (bt * bt) (al * al) (nei i)) *ᵥ
            ((crossProduct x (polyWeight u.P (bt * bt) (al * al) (nei i)) *
            crossProduct x (polyWeight u.P (bt * bt) (al * al) (nei i)))⁻¹ *ᵥ x i)),
          fun j => .ok (scalableSpread x (fun i => polyWeight u.P (bt * bt) (al * al) (nei i))
            (fun i => polyWeight2 u.P (bt * bt) (al * al) (nei i)) i j)) := by
        intro i
        have := Res.tabulate_eq_ok.1 ht i
        unfold scaSpreadRow at this
        simp only [scaSystem_eq (hpos i.pos), scaSystem2_eq (hpos i.pos), Res.bind, invGeneral_square (hp i)] at this
        rw [← Res.ok.inj this]
        congr 1
        funext j
        unfold fsqrt
        rw [if_neg (not_lt.2 (spread_nonneg (hV i) ?_ j))]
        · rfl
        · rw [transpose_nonsing_inv, transpose_mul]
          have := (hp i).isHermitian
          rw [IsHermitian, conjTranspose_eq_transpose_of_trivial, ← crossProduct_eq] at this
          rw [this]
      have hT2 : ∑ i, (t i).1 = scalableTrace2 x (fun i => polyWeight u.P (bt * bt) (al * al) (nei i))
          fun i => polyWeight2 u.P (bt * bt) (al * al) (nei i) :=
        Finset.sum_congr rfl fun i _ => by rw [ht' i]
      have hbe : ∀ i, IsWLS x y (polyWeight u.P (bt * bt) (al * al) (nei i)) (betas i) := by
        intro i
        obtain ⟨beta, e, h1, -⟩ := C36_coefficients (P := u.P) x y (hpos i.pos) (mul_self_nonneg al) (hg i)
        have hbi := Res.tabulate_eq_ok.1 hb i
        rw [e] at hbi
        cases Res.ok.inj hbi
        exact h1 (hd i)
      have hr := residualSS_nonneg x y (Matrix.of betas)
      have hn0 : 0 < residualSS x y (Matrix.of betas) → (0 : ℝ) < n := fun hp => by
        rcases Nat.eq_zero_or_pos n with hz | hz
        · subst hz; simp [residualSS] at hp
        · exact_mod_cast hz
      refine ⟨hbe, hT, hT2, by simp only [calcDiagnostic, rss_eq], ?_, ?_, fun hp => ?_, fun hp ht => ?_, fun ht => ?_, fun he i j => ?_⟩
      · simp [calcDiagnostic, hT, hT2]
      · simp [calcDiagnostic, hT, hT2]
      · have := hn0 hp
        simp [calcDiagnostic, rss_eq, fdiv, flog, this.ne', Res.bind, not_le.2 (div_pos hp this), aicFormula, hT]
      · have := hn0 hp
        have hd : (n : ℝ) - 2 - scalableTrace x (fun i => polyWeight u.P (bt * bt) (al * al) (nei i)) ≠ 0 := fun e => ht (by linarith)
        simp [calcDiagnostic, rss_eq, fdiv, flog, this.ne', Res.bind, not_le.2 (div_pos hp this), aiccFormula, hT, hd]
      · simp only [calcDiagnostic, rss_eq, totalSS_eq, fdiv, ht, if_false, Res.bind]
      · simp only [hT, hT2, rss_eq]
        simp only [ht', fdiv, he.ne', if_false, Res.bind, fsqrt]
        rw [if_neg]
        exact not_lt.2 (mul_nonneg (div_nonneg hr he.le) (Real.sqrt_nonneg _))

/-- **C122 (what is reported).** Whatever the data, the distances, the criterion, the degree, the bandwidth, the order in which equal distances are
listed and the parameters the minimiser picks: if every local regression is determined, the coefficients are the weighted least squares
solutions and the reported traces, diagnostics and standard errors are the values of the formulas in `Spec/ScalableReport` for the reported
scale and penalty. -/
theorem C122_report (u : ScaCfg n k) (hσ : ∀ d, Sorts d (u.σ d)) (x : Matrix (Fin n) (Fin k) ℝ) (y : Fin n → ℝ)
    (D : Fin n → Fin n → ℝ) (r : ScaReport n k) (h : scaRun u x y D = .ok (some r)) :
    scaFit u x y D = .ok (some r.fit) ∧
    ∃ W V, ScalablePair (if u.ker = .Gaussian then baseGauss else baseExp) D (min ⌊u.bw⌋₊ (n - 1)) u.P r.fit.scale r.fit.penalty W V ∧
      ((∀ i, Determined x (W i)) → IsScalableReport x y W V r) := by
  obtain ⟨hf, nei, -, hp, hr⟩ := report_core hσ h
  exact ⟨hf, _, _, hp, hr⟩

theorem scaSetup_aic {bw : ℝ} {σ : (Fin n → ℝ) → Equiv.Perm (Fin n)} (hσ : ∀ d, Sorts d (σ d)) {D : Fin n → Fin n → ℝ}
    {ker : KernelType} (hk : ker = .Gaussian ∨ ker = .Exponential) {nei : Fin n → NeiRow n}
    {st : (Fin n → NeiRow n) × (Fin n → ℝ)} (h : scaSetup .AIC bw σ D = .ok st) (hn : scaBaseRows ker st.1 st.2 = .ok nei) :
    2 ≤ min ⌊bw⌋₊ (n - 1) ∧ (∀ i, st.1 i = (i, 0) :: ((List.ofFn (σ (D i))).take (min ⌊bw⌋₊ n)).map fun j => (j, D i j)) ∧
      ∀ i, IsKthSmallest (D i) (min 50 (min ⌊bw⌋₊ (n - 1)) - 1) (st.2 i) := by
  obtain ⟨rows, hr, h⟩ := Res.bind_eq_ok'.1 h
  obtain ⟨col, hcol, h⟩ := Res.bind_eq_ok'.1 h
  cases Res.ok.inj h
  have hr := Res.tabulate_eq_ok.1 hr
  have hc : scaCount bw n = min ⌊bw⌋₊ n := by unfold scaCount; split <;> omega
  have hb : scaBw bw n = min ⌊bw⌋₊ (n - 1) := by unfold scaBw; split <;> omega
  simp only [scaBandColumn, hc, hb] at hcol
  have h0 : min ⌊bw⌋₊ (n - 1) ≠ 0 := by intro h0; rw [if_pos h0] at hcol; cases hcol
  rw [if_neg h0, if_pos (by omega)] at hcol
  have hrow : ∀ i, rows i = (i, 0) :: ((List.ofFn (σ (D i))).take (min ⌊bw⌋₊ n)).map fun j => (j, D i j) := by
    intro i
    have := hr i
    simp only [scaDataNeighbours, hc] at this
    rw [scaNearest_ok (by omega) (by omega)] at this
    exact (Res.ok.inj this).symm
  have h2 : 2 ≤ min ⌊bw⌋₊ (n - 1) := by
    by_contra hlt
    have h1 : min ⌊bw⌋₊ (n - 1) = 1 := by omega
    rw [h1] at hcol
    have hz : ∀ i, col i = 0 := fun i => by rw [← Res.ok.inj hcol]; simp [hrow]
    obtain ⟨med, hm, hn⟩ := Res.bind_eq_ok'.1 hn
    obtain ⟨lo, hi, ⟨⟨i, hi1⟩, -⟩, ⟨⟨j, hj1⟩, -⟩, rfl⟩ := armaMedian_spec hm
    rw [← hi1, ← hj1] at hn
    have hi0 : 0 < n := by omega
    have := mapRes_eq_ok.1 (Res.tabulate_eq_ok.1 hn ⟨0, hi0⟩)
    simp only [hrow] at this
    rcases List.forall₂_cons_left_iff.1 this with ⟨w, ws, hw, -, -⟩
    obtain ⟨v, hv, -⟩ := Res.bind_eq_ok'.1 hw
    simp only [hz, add_zero, zero_div] at hv
    have h3 : Real.sqrt 3 ≠ 0 := by positivity
    rcases hk with rfl | rfl
    · simp [scaBaseWeight, fdiv, h3, Res.bind] at hv
    · simp [scaBaseWeight, fdiv, Res.bind] at hv
  refine ⟨h2, hrow, fun i => ?_⟩
  rw [← Res.ok.inj hcol]
  simp only [hrow, List.map_cons, List.map_map]
  obtain ⟨t, ht⟩ : ∃ t, min 50 (min ⌊bw⌋₊ (n - 1)) - 1 = t + 1 := ⟨min 50 (min ⌊bw⌋₊ (n - 1)) - 2, by omega⟩
  rw [ht, List.getElem?_cons_succ]
  exact sorted_kth (hσ (D i)) (K := t + 1) (by omega) (by omega) (by omega)

theorem search_weights {bw : ℝ} {σ : (Fin n → ℝ) → Equiv.Perm (Fin n)} (hσ : ∀ d, Sorts d (σ d)) {D : Fin n → Fin n → ℝ}
    {ker : KernelType} (hk : ker = .Gaussian ∨ ker = .Exponential) {nei : Fin n → NeiRow n}
    {st : (Fin n → NeiRow n) × (Fin n → ℝ)} (h : scaSetup .AIC bw σ D = .ok st) (hnei : scaBaseRows ker st.1 st.2 = .ok nei) (P : ℕ) (b a : ℝ) :
    ScalableSearchWeights (if ker = .Gaussian then baseGauss else baseExp) D (min ⌊bw⌋₊ (n - 1)) (min ⌊bw⌋₊ n) P b a
      fun i => polyWeight P b a (nei i) := by
  obtain ⟨h2, hrow, hcol⟩ := scaSetup_aic hσ hk h hnei
  obtain ⟨med, hmed, hn⟩ := scaBaseRows_ok hk hnei
  have hle : min ⌊bw⌋₊ n ≤ n := by omega
  have hb1 : scaBase ker med 0 = 1 := by unfold scaBase baseGauss baseExp; split <;> simp
  refine ⟨st.2, med, hcol, hmed, fun i => ⟨_, take_sorted_nearest (hσ (D i)) hle, fun j => ?_⟩⟩
  have e := polyWeight_nodup (P := P) (b := b) (a := a) ((take_sorted_nearest (hσ (D i)) hle).nodup)
    (fun j => scaBase ker med (D i j)) j
  show polyWeight P b a (nei i) j = _
  rw [hn, hrow, List.map_cons, List.map_map, hb1]
  unfold polyWeight at e ⊢
  by_cases hji : j = i
  · subst hji
    rw [List.filter_cons_of_pos (by simp), if_pos rfl, List.map_cons, List.sum_cons, one_mul]
    refine Eq.trans (add_left_comm _ _ _) (Eq.trans (congrArg (polyKernel P b 1 + ·) e) ?_)
    exact (add_assoc _ _ _).symm.trans (congrArg (· + _) (add_comm _ _))
  · rw [List.filter_cons_of_neg (by simp; exact fun h => hji h.symm), if_neg hji, zero_mul, add_zero]
    exact e

/-- **C100 (criterion, AIC).** With the Akaike criterion the reported value is the corrected criterion of the regressions with the weights
`ScalableSearchWeights`, in which every observation counts once more for itself, and with the trace of `scalableTrace`. Every local system then
has a determinant of at least 10⁻¹⁰, and the residuals are not all 0. -/
theorem C100_aic_value (u : ScaCfg n k) (hσ : ∀ d, Sorts d (u.σ d)) (hu : u.crit = .AIC) (x : Matrix (Fin n) (Fin k) ℝ) (y : Fin n → ℝ)
    (D : Fin n → Fin n → ℝ) (r : ScaFit n k) (h : scaFit u x y D = .ok (some r)) :
    2 ≤ min ⌊u.bw⌋₊ (n - 1) ∧
    ∃ W, ScalableSearchWeights (if u.ker = .Gaussian then baseGauss else baseExp) D (min ⌊u.bw⌋₊ (n - 1)) (min ⌊u.bw⌋₊ n) u.P
        r.scale r.penalty W ∧
      (∀ i, Determined x (W i) ∧ 1 / 10 ^ 10 ≤ (crossProduct x (W i)).det) ∧
      ∃ beta : Matrix (Fin n) (Fin k) ℝ, (∀ i, IsWLS x y (W i) (beta i)) ∧ 0 < residualSS x y beta ∧ scalableTrace x W ≠ n - 2 ∧
        r.cv = aiccFormula n (residualSS x y beta) (scalableTrace x W) := by
  unfold scaFit at h
  obtain ⟨c, hc, h⟩ := Res.bind_eq_ok'.1 h
  match c, hc, h with
  | none, _, h => cases h
  | some (b, a, cv), hc, h =>
    obtain ⟨hk, st, nei, bt, al, hst, hnei, hcr, hcv, rfl, rfl, -⟩ := scaChoose_ok hc
    obtain ⟨_, -, h⟩ := Res.bind_eq_ok'.1 h
    obtain ⟨_, -, h⟩ := Res.bind_eq_ok'.1 h
    obtain ⟨_, -, h⟩ := Res.bind_eq_ok'.1 h
    cases Option.some.inj (Res.ok.inj h)
    rw [hu] at hst hcr
    obtain ⟨h2, hrow, hcol⟩ := scaSetup_aic hσ hk hst hnei
    obtain ⟨med, hmed, hn⟩ := scaBaseRows_ok hk hnei
    have hg : ∀ i, ∀ j ∈ nei i, 0 ≤ j.2 := by
      intro i j hj
      rw [hn] at hj
      obtain ⟨q, _, rfl⟩ := List.mem_map.1 hj
      exact scaBase_nonneg ..
    refine ⟨h2, fun i => polyWeight u.P (bt * bt) (al * al) (nei i), search_weights hσ hk hst hnei .., ?_⟩
    · obtain ⟨sys, hs, hcr⟩ := Res.bind_eq_ok'.1 hcr
      have hs := Res.tabulate_eq_ok.1 hs
      have hpos : 0 < bt * bt := scaSystem_scale (hs ⟨0, by omega⟩)
      have hw0 : ∀ i l, 0 ≤ polyWeight u.P (bt * bt) (al * al) (nei i) l := fun i =>
        polyWeight_nonneg u.P hpos.le (mul_self_nonneg al) (hg i)
      have hsys : ∀ i, sys i = (xtwx x (polyWeight u.P (bt * bt) (al * al) (nei i)),
          xtw x (polyWeight u.P (bt * bt) (al * al) (nei i)) *ᵥ y) := by
        intro i
        have := hs i
        rw [scaSystem_eq hpos] at this
        exact (Res.ok.inj this).symm
      simp only [hsys] at hcr
      by_cases hdet : ∃ i, (xtwx x (polyWeight u.P (bt * bt) (al * al) (nei i))).det < 1 / 10 ^ 10
      · rw [if_pos hdet] at hcr
        exact absurd hcv (by rw [← Res.ok.inj hcr]; exact lt_irrefl _)
      rw [if_neg hdet] at hcr
      push Not at hdet
      obtain ⟨beta, hbeta, hcr⟩ := Res.bind_eq_ok'.1 hcr
      obtain ⟨tr, htr, hcr⟩ := Res.bind_eq_ok'.1 hcr
      have hp : ∀ i, (xtwx x (polyWeight u.P (bt * bt) (al * al) (nei i))).PosDef := by
        intro i
        have := Res.tabulate_eq_ok.1 hbeta i
        rw [scaSolve_gram (hw0 i)] at this
        by_contra hn
        rw [if_neg hn] at this
        cases this
      have hbe : ∀ i, IsWLS x y (polyWeight u.P (bt * bt) (al * al) (nei i)) (beta i) := by
        intro i
        have := Res.tabulate_eq_ok.1 hbeta i
        rw [scaSolve_gram (hw0 i), if_pos (hp i)] at this
        rw [← Res.ok.inj this]
        exact isWLS_of_posDef (hp i)
      have hT : ∑ i, tr i = scalableTrace x fun i => polyWeight u.P (bt * bt) (al * al) (nei i) := by
        refine Finset.sum_congr rfl fun i _ => ?_
        have := Res.tabulate_eq_ok.1 htr i
        unfold scaTraceRow at this
        rw [scaSystem_eq hpos] at this
        simp only [Res.bind, invGeneral_square (hp i)] at this
        exact (Res.ok.inj this).symm
      refine ⟨fun i => ⟨(gram_posDef_iff_determined x _ (hw0 i)).1 (hp i), by rw [crossProduct_eq]; exact hdet i⟩, Matrix.of beta, hbe, ?_⟩
      have hsse : ∑ i, (y i - x i ⬝ᵥ beta i) * (y i - x i ⬝ᵥ beta i) = residualSS x y (Matrix.of beta) := by
        unfold residualSS
        refine Finset.sum_congr rfl fun i _ => ?_
        rw [sq]; rfl
      have hnn : (0 : ℝ) < n := by exact_mod_cast (show 0 < n by omega)
      simp only [hT, hsse] at hcr
      have hr0 := residualSS_nonneg x y (Matrix.of beta)
      rcases hr0.eq_or_lt with hr0 | hr0
      · simp only [← hr0, fdiv, hnn.ne', if_false, Res.bind, zero_div, Real.sqrt_zero, flog, le_refl, if_true] at hcr
        exact absurd hcv (by rw [← Res.ok.inj hcr]; exact lt_irrefl _)
      have hq : 0 < residualSS x y (Matrix.of beta) / n := div_pos hr0 hnn
      by_cases ht : (n : ℝ) - 2 - scalableTrace x (fun i => polyWeight u.P (bt * bt) (al * al) (nei i)) = 0
      · simp only [fdiv, hnn.ne', if_false, Res.bind, flog, not_le.2 (Real.sqrt_pos.2 hq), ht, if_true] at hcr
        exact absurd hcv (by rw [← Res.ok.inj hcr]; exact lt_irrefl _)
      · simp only [fdiv, hnn.ne', if_false, Res.bind, flog, not_le.2 (Real.sqrt_pos.2 hq), ht] at hcr
        refine ⟨hr0, fun e => ht (by rw [e]; ring), ?_⟩
        show cv = _
        rw [← Res.ok.inj hcr, Real.log_sqrt hq.le, aiccFormula]
        ring

theorem crossProduct_units (x : Matrix (Fin n) (Fin k) ℝ) (w : Fin n → ℝ) (c : ℝ) :
    crossProduct (c • x) w = (c ^ 2) • crossProduct x w := by
  ext a b
  simp only [crossProduct, of_apply, Matrix.smul_apply, smul_eq_mul, Finset.mul_sum]
  exact Finset.sum_congr rfl fun l _ => by ring

theorem inv_smul_real (A : Matrix (Fin k) (Fin k) ℝ) {c : ℝ} (hc : c ≠ 0) : (c • A)⁻¹ = c⁻¹ • A⁻¹ := by
  by_cases hA : IsUnit A.det
  · have := Matrix.inv_smul' A (Units.mk0 c hc) hA
    exact this
  · rw [nonsing_inv_apply_not_isUnit A hA, smul_zero]
    refine nonsing_inv_apply_not_isUnit _ fun h => hA ?_
    rw [det_smul] at h
    exact isUnit_of_mul_isUnit_right h

theorem square_units (x : Matrix (Fin n) (Fin k) ℝ) (w : Fin n → ℝ) {c : ℝ} (hc : c ≠ 0) :
    (crossProduct (c • x) w * crossProduct (c • x) w)⁻¹ = (c ^ 4)⁻¹ • (crossProduct x w * crossProduct x w)⁻¹ := by
  rw [crossProduct_units, smul_mul_smul, ← inv_smul_real _ (pow_ne_zero 4 hc)]
  congr 2
  ring

theorem scalableTrace_units (x : Matrix (Fin n) (Fin k) ℝ) (W : Fin n → Fin n → ℝ) {c : ℝ} (hc : c ≠ 0) :
    scalableTrace (c • x) W = scalableTrace x W / c ^ 2 := by
  unfold scalableTrace
  rw [Finset.sum_div]
  refine Finset.sum_congr rfl fun i _ => ?_
  rw [square_units x _ hc]
  have : (c • x) i = c • x i := rfl
  rw [this, mulVec_smul, smul_mulVec, dotProduct_smul, dotProduct_smul, smul_dotProduct]
  simp only [smul_eq_mul]
  field_simp

theorem scalableTrace2_units (x : Matrix (Fin n) (Fin k) ℝ) (W V : Fin n → Fin n → ℝ) {c : ℝ} (hc : c ≠ 0) :
    scalableTrace2 (c • x) W V = scalableTrace2 x W V / c ^ 4 := by
  unfold scalableTrace2
  rw [Finset.sum_div]
  refine Finset.sum_congr rfl fun i _ => ?_
  rw [square_units x _ hc, crossProduct_units x (V i)]
  have : (c • x) i = c • x i := rfl
  rw [this]
  simp only [mulVec_smul, smul_mulVec, dotProduct_smul, smul_dotProduct, smul_eq_mul]
  field_simp

theorem scalableSpread_units (x : Matrix (Fin n) (Fin k) ℝ) (W V : Fin n → Fin n → ℝ) {c : ℝ} (hc : c ≠ 0) (i : Fin n) (j : Fin k) :
    scalableSpread (c • x) W V i j = scalableSpread x W V i j / |c| ^ 3 := by
  unfold scalableSpread
  rw [square_units x _ hc, crossProduct_units x (V i)]
  simp only [smul_mul_assoc, mul_smul_comm, Matrix.smul_apply, smul_eq_mul]
  have h3 : |c| ^ 3 = √(c ^ 6) := by
    rw [show c ^ 6 = (|c| ^ 3) ^ 2 by rw [← pow_mul, ← abs_pow]; exact (abs_of_nonneg (by positivity)).symm, Real.sqrt_sq (by positivity)]
  rw [h3, ← Real.sqrt_div']
  · congr 1
    field_simp
  · positivity

theorem determined_units {x : Matrix (Fin n) (Fin k) ℝ} {w : Fin n → ℝ} {c : ℝ} (hc : c ≠ 0) (h : Determined x w) : Determined (c • x) w := by
  refine fun b hb => h b fun l hl => ?_
  have := hb l hl
  simp only [Matrix.smul_apply, smul_eq_mul, mul_assoc, ← Finset.mul_sum] at this
  exact (mul_eq_zero.1 this).resolve_left hc

/-- **C122 (units of the regressors).** Two fits of the same data that differ only in the unit of the regressors (all multiplied by `c`) and end
with the same scale and penalty: the coefficients are divided by `c`, so fitted values and residual sum of squares agree, but the reported
traces are divided by `c²` and `c⁴`, and the squared standard errors are not divided by `c²`. -/
theorem C122_units (u : ScaCfg n k) (hσ : ∀ d, Sorts d (u.σ d)) (x : Matrix (Fin n) (Fin k) ℝ) (y : Fin n → ℝ)
    (D : Fin n → Fin n → ℝ) {c : ℝ} (hc : c ≠ 0) {r r' : ScaReport n k} (h : scaRun u x y D = .ok (some r))
    (h' : scaRun u (c • x) y D = .ok (some r')) (hs : r'.fit.scale = r.fit.scale) (hp : r'.fit.penalty = r.fit.penalty)
    (hd : ∀ W V, ScalablePair (if u.ker = .Gaussian then baseGauss else baseExp) D (min ⌊u.bw⌋₊ (n - 1)) u.P r.fit.scale r.fit.penalty W V →
      ∀ i, Determined x (W i)) :
    (∀ i j, r'.fit.betas i j = r.fit.betas i j / c) ∧ r'.diagnostic.RSS = r.diagnostic.RSS ∧
    r'.fit.trS = r.fit.trS / c ^ 2 ∧ r'.trStS = r.trStS / c ^ 4 ∧
    (0 < n - 2 * r.fit.trS + r.trStS → 0 < n - 2 * r.fit.trS / c ^ 2 + r.trStS / c ^ 4 → ∀ i j, ∃ v, 0 ≤ v ∧
      r.se i j = .ok √(r.diagnostic.RSS / (n - 2 * r.fit.trS + r.trStS) * v) ∧
      r'.se i j = .ok √(r.diagnostic.RSS / (n - 2 * r.fit.trS / c ^ 2 + r.trStS / c ^ 4) * (v / |c| ^ 3))) := by
  obtain ⟨-, nei, hn, hpair, hr⟩ := report_core hσ h
  obtain ⟨-, nei', hn', -, hr'⟩ := report_core hσ h'
  rw [hn] at hn'
  cases Res.ok.inj hn'
  have hdet := hd _ _ hpair
  have R := hr hdet
  have R' := hr' fun i => by rw [hs, hp]; exact determined_units hc (hdet i)
  rw [hs, hp] at R'
  have hb : ∀ i j, r'.fit.betas i j = r.fit.betas i j / c := by
    intro i j
    have h1 := wls_covariates (s := fun _ => c) (fun _ => hc) (R.betas i)
    exact congrFun (wls_unique (R'.betas i) h1) j
  have hR : residualSS (c • x) y r'.fit.betas = residualSS x y r.fit.betas := by
    refine Finset.sum_congr rfl fun i _ => ?_
    congr 2
    refine Finset.sum_congr rfl fun j _ => ?_
    rw [hb, Matrix.smul_apply, smul_eq_mul]
    field_simp
  refine ⟨hb, by rw [R.rss, R'.rss, hR], ?_, ?_, fun h1 h2 i j => ⟨scalableSpread x _ _ i j, Real.sqrt_nonneg _,
    R.se (by rw [← R.trS, ← R.trStS]; exact h1) i j |>.trans (by rw [R.rss, R.trS, R.trStS]), ?_⟩⟩
  · rw [R'.trS, R.trS, scalableTrace_units x _ hc]
  · rw [R'.trStS, R.trStS, scalableTrace2_units x _ _ hc]
  · rw [R'.se, R.rss, R.trS, R.trStS, scalableTrace_units x _ hc, scalableTrace2_units x _ _ hc, scalableSpread_units x _ _ hc, hR]
    · simp only [mul_div_assoc]
    · rw [scalableTrace_units x _ hc, scalableTrace2_units x _ _ hc, ← R.trS, ← R.trStS, ← mul_div_assoc]; exact h2

theorem exSca_choose_units {c : ℝ} (hc : c ≠ 0) {P : ℕ} {σ : (Fin 3 → ℝ) → Equiv.Perm (Fin 3)} (hσ : ∀ d, Sorts d (σ d)) {opt : (ℝ → ℝ → Res ℝ) → ℝ × ℝ}
    (hopt : ∀ f, (opt f).1 ≠ 0) (approx : Matrix (Fin 1) (Fin 1) ℝ → (Fin 1 → ℝ) → Option (Fin 1 → ℝ)) :
    ∃ f, ∃ cv, scaChoose (exSca P σ opt approx) (c • oneCol 3) ![1, 0, 0] lineD =
      .ok (some ((opt f).1 * (opt f).1, (opt f).2 * (opt f).2, cv)) := by
  set X := c • oneCol 3 with hX
  obtain ⟨st, hst⟩ := (C37_works_partial (σ := σ) lineD (bw := 3) (by norm_num)).2 (Or.inr (by norm_num))
  obtain ⟨q, hq, -, hrow, hcol⟩ := scaSetup_cv hσ hst
  have hq2 : q = 2 := by rw [hq]; norm_num
  subst hq2
  obtain ⟨nei, hnei⟩ := scaBaseRows_succeeds (ker := .Gaussian) (Or.inl rfl) st.1 (col := st.2) (by norm_num) (fun i => by
    rw [IsKthSmallest.unique (hcol i) (lineD_kth i)]; norm_num)
  obtain ⟨med, hmed, hn⟩ := scaBaseRows_ok (Or.inl rfl) hnei
  set p := opt (scaCriterion .CV P X ![1, 0, 0] nei approx) with hp
  have hb : 0 < p.1 * p.1 := mul_self_pos.2 (hopt _)
  have ha : 0 ≤ p.2 * p.2 := mul_self_nonneg _
  have hg : ∀ i, ∀ j ∈ nei i, 0 ≤ j.2 := by
    intro i j hj
    rw [hn] at hj
    obtain ⟨q, _, rfl⟩ := List.mem_map.1 hj
    exact scaBase_nonneg .Gaussian med q.2
  set w := fun i => polyWeight P (p.1 * p.1) (p.2 * p.2) (nei i) with hw
  have hw0 : ∀ i j, 0 ≤ w i j := fun i => polyWeight_nonneg P hb.le ha (hg i)
  have hwp : ∀ i, ∃ j, 0 < w i j := by
    intro i
    have hne := take_sorted_nearest (hσ (lineD i)) (cnt := 2) (by norm_num)
    obtain ⟨j, hj⟩ : ∃ j, j ∈ (List.ofFn (σ (lineD i))).take 2 := by
      refine List.exists_mem_of_ne_nil _ fun e => ?_
      have := hne.length
      rw [e] at this; cases this
    refine ⟨j, ?_⟩
    rw [hw]
    simp only
    rw [hn, hrow, List.map_map]
    have := polyWeight_nodup (P := P) (b := p.1 * p.1) (a := p.2 * p.2) hne.nodup (fun j => scaBase .Gaussian med (lineD i j)) j
    refine lt_of_lt_of_eq ?_ this.symm
    rw [if_pos hj]
    exact add_pos_of_nonneg_of_pos ha (polyKernel_pos P hb (scaBase_nonneg ..))
  have hpd : ∀ i, (xtwx X (w i)).PosDef := fun i =>
    (gram_posDef_iff_determined _ _ (hw0 i)).2 (determined_units hc (oneCol_determined (hwp i).choose_spec))
  have hpd1 : ∀ i, (xtwx (oneCol 3) (w i)).PosDef := fun i =>
    (gram_posDef_iff_determined _ _ (hw0 i)).2 (oneCol_determined (hwp i).choose_spec)
  have hu : ∀ i, IsUnit (xtwx X (w i)).det := fun i => (isUnit_iff_isUnit_det _).1 (hpd i).isUnit
  have hcr : ∃ cv, scaCriterion .CV P X ![1, 0, 0] nei approx p.1 p.2 = .ok cv ∧ cv < dblMax := by
    have hs : Res.tabulate 3 (fun i => scaSystem P X ![1, 0, 0] (nei i) (p.1 * p.1) (p.2 * p.2)) =
        .ok fun i => (xtwx X (w i), xtw X (w i) *ᵥ ![1, 0, 0]) :=
      Res.tabulate_eq_ok.2 fun i => scaSystem_eq hb
    unfold scaCriterion scaLoocv
    simp only [hs, Res.bind, hu, if_true, Option.isSome_some, implies_true, Option.getD_some, Res.ok.injEq, exists_eq_left']
    refine lt_of_le_of_lt (b := (3 : ℝ)) ?_ (by linarith [hundred_lt_dblMax])
    refine (Finset.sum_le_card_nsmul _ _ 1 fun i _ => ?_).trans (by simp)
    obtain ⟨j, hj⟩ := hwp i
    have hm := mean_unit (y := ![1, 0, 0]) (hw0 i) (fun j => by fin_cases j <;> simp)
      (Finset.sum_pos' (fun j _ => hw0 i j) ⟨j, Finset.mem_univ _, hj⟩) (oneCol_mean (hpd1 i))
    have e : X i ⬝ᵥ ((xtwx X (w i))⁻¹ *ᵥ (xtw X (w i) *ᵥ ![1, 0, 0])) =
        ((xtwx (oneCol 3) (w i))⁻¹ *ᵥ (xtw (oneCol 3) (w i) *ᵥ ![1, 0, 0])) 0 := by
      have e1 : xtw X (w i) = c • xtw (oneCol 3) (w i) := by
        ext a b; simp [xtw, hX]; try ring
      have e2 : X i = fun _ => c := by funext a; simp [hX, oneCol]
      rw [← crossProduct_eq, hX, crossProduct_units, ← hX, inv_smul_real _ (pow_ne_zero 2 hc), crossProduct_eq, e1, e2]
      simp only [smul_mulVec, mulVec_smul, dotProduct, Finset.univ_unique, Finset.sum_singleton, Pi.smul_apply, smul_eq_mul,
        Fin.default_eq_zero]
      field_simp
    rw [e]
    set t := ((xtwx (oneCol 3) (w i))⁻¹ *ᵥ (xtw (oneCol 3) (w i) *ᵥ ![1, 0, 0])) 0
    have hy : (![1, 0, 0] : Fin 3 → ℝ) i = 0 ∨ (![1, 0, 0] : Fin 3 → ℝ) i = 1 := by fin_cases i <;> simp
    rcases hy with h | h <;> rw [h] <;> nlinarith [hm.1, hm.2]
  obtain ⟨cv, hcv, hlt⟩ := hcr
  refine ⟨scaCriterion .CV P X ![1, 0, 0] nei approx, cv, ?_⟩
  unfold scaChoose exSca
  simp only [true_or, if_true]
  rw [hst]
  simp only [Res.bind]
  rw [hnei]
  simp only [← hp, hcv, hlt, if_true]

theorem ex_sca_report {c : ℝ} (hc : c ≠ 0) {P : ℕ} {σ : (Fin 3 → ℝ) → Equiv.Perm (Fin 3)} (hσ : ∀ d, Sorts d (σ d)) {p : ℝ × ℝ}
    (hp : p.1 ≠ 0) (approx : Matrix (Fin 1) (Fin 1) ℝ → (Fin 1 → ℝ) → Option (Fin 1 → ℝ)) :
    ∃ r, scaRun (exSca P σ (fun _ => p) approx) (c • oneCol 3) ![1, 0, 0] lineD = .ok (some r) ∧
      r.fit.scale = p.1 * p.1 ∧ r.fit.penalty = p.2 * p.2 := by
  obtain ⟨-, cv, hch⟩ := exSca_choose_units hc (P := P) hσ (opt := fun _ => p) (fun _ => hp) approx
  set b := p.1 * p.1
  set a := p.2 * p.2
  have hb : 0 < b := mul_self_pos.2 hp
  have ha : 0 ≤ a := mul_self_nonneg _
  have hbw : ⌊((scaBw (exSca P σ (fun _ => p) approx).bw 3 : ℕ) : ℝ)⌋₊ = 2 := by
    rw [Nat.floor_natCast]; unfold scaBw exSca; norm_num
  obtain ⟨nei, hnei⟩ := scaRows_succeeds (ker := .Gaussian) (Or.inl rfl) hσ lineD (by norm_num)
    (bw := (scaBw (exSca P σ (fun _ => p) approx).bw 3 : ℕ)) (by rw [hbw]; norm_num) (by rw [hbw]; norm_num)
    (by rw [hbw]; intro i r hr; rw [IsKthSmallest.unique hr (lineD_kth i)]; norm_num)
  obtain ⟨-, hg⟩ := scaRows_ok (Or.inl rfl) hσ hnei P b a
  choose beta hbeta using fun i => C36_coefficients (P := P) (c • oneCol 3) ![1, 0, 0] hb ha (hg i)
  have ht : ∀ i, ∃ t, scaTraceRow P (c • oneCol 3) ![1, 0, 0] (nei i) b a i = .ok t := by
    intro i
    unfold scaTraceRow
    rw [scaSystem_eq hb]
    simp only [Res.bind]
    split <;> exact ⟨_, rfl⟩
  choose t ht using ht
  have hv : ∀ i, ∃ t, scaSpreadRow P (c • oneCol 3) ![1, 0, 0] (nei i) b a i = .ok t := by
    intro i
    unfold scaSpreadRow
    rw [scaSystem_eq hb, scaSystem2_eq hb]
    simp only [Res.bind]
    split <;> exact ⟨_, rfl⟩
  choose v hv using hv
  have hfit : scaFit (exSca P σ (fun _ => p) approx) (c • oneCol 3) ![1, 0, 0] lineD =
      .ok (some ⟨b, a, cv, Matrix.of beta, ∑ i, t i⟩) := by
    unfold scaFit
    rw [hch]
    change (scaRows KernelType.Gaussian (scaBw (exSca P σ (fun _ => p) approx).bw 3 : ℕ) σ lineD).bind _ = _
    rw [hnei]
    change (Res.tabulate 3 fun i => scaFitRow P (c • oneCol 3) ![1, 0, 0] (nei i) b a).bind _ = _
    rw [Res.tabulate_eq_ok.2 fun i => (hbeta i).1]
    change (Res.tabulate 3 fun i => scaTraceRow P (c • oneCol 3) ![1, 0, 0] (nei i) b a i).bind _ = _
    rw [Res.tabulate_eq_ok.2 ht]
    rfl
  have hrun : ∃ r, scaRun (exSca P σ (fun _ => p) approx) (c • oneCol 3) ![1, 0, 0] lineD = .ok (some r) ∧
      r.fit = ⟨b, a, cv, Matrix.of beta, ∑ i, t i⟩ := by
    unfold scaRun
    rw [hfit]
    change ∃ r, (scaRows KernelType.Gaussian (scaBw (exSca P σ (fun _ => p) approx).bw 3 : ℕ) σ lineD).bind _ = _ ∧ _
    rw [hnei]
    change ∃ r, (Res.tabulate 3 fun i => scaSpreadRow P (c • oneCol 3) ![1, 0, 0] (nei i) b a i).bind _ = _ ∧ _
    rw [Res.tabulate_eq_ok.2 hv]
    exact ⟨_, rfl, rfl⟩
  obtain ⟨r, h1, h2⟩ := hrun
  exact ⟨r, h1, by rw [h2], by rw [h2]⟩

theorem pair_flat {b a : ℝ} (hb : 0 < b) {W V : Fin 3 → Fin 3 → ℝ} {base : ℝ → ℝ → ℝ} (h : ScalablePair base lineD 2 0 b a W V) (i : Fin 3) :
    ∑ j, W i j = 3 * a + 2 ∧ ∑ j, V i j = 3 * a ^ 2 + 4 * a + 2 ∧ (∃ l : Fin 3, W i l = a + 1) ∧ (∀ j, a ≤ W i j) ∧ ∀ j, W i j ≤ a + 1 := by
  obtain ⟨r, med, -, -, h⟩ := h
  obtain ⟨l, hl, h⟩ := h i
  have k1 : ∀ g, polyKernel 0 b g = 1 := by intro g; simp [polyKernel, hb.ne']
  have k2 : ∀ g, polySquares 0 b g = 1 := by intro g; simp [polySquares, hb.ne']
  simp only [k1, k2] at h
  have hc : (Finset.univ.filter (· ∈ l)).card = 2 := by
    have : Finset.univ.filter (· ∈ l) = l.toFinset := by ext; simp
    rw [this, List.toFinset_card_of_nodup hl.nodup, hl.length]
  refine ⟨?_, ?_, ?_, fun j => ?_, fun j => ?_⟩
  · rw [Finset.sum_congr rfl fun j _ => (h j).1, Finset.sum_add_distrib, Finset.sum_ite]
    simp [hc]
  · rw [Finset.sum_congr rfl fun j _ => (h j).2, Finset.sum_add_distrib, Finset.sum_ite]
    simp [hc]; ring
  · obtain ⟨j, hj⟩ : ∃ j, j ∈ l := List.exists_mem_of_ne_nil _ fun e => by have := hl.length; rw [e] at this; cases this
    exact ⟨j, by rw [(h j).1, if_pos hj]⟩
  · rw [(h j).1]; split <;> linarith
  · rw [(h j).1]; split <;> linarith

theorem crossProduct_oneCol (w : Fin n → ℝ) : crossProduct (oneCol n) w = Matrix.of fun _ _ => ∑ l, w l := by
  ext a b; simp [crossProduct, oneCol]

theorem inv_one_by_one (t : ℝ) : (Matrix.of fun _ _ => t : Matrix (Fin 1) (Fin 1) ℝ)⁻¹ = Matrix.of fun _ _ => t⁻¹ := by
  rw [inv_def, adjugate_fin_one]
  ext a b
  have : a = b := Subsingleton.elim _ _
  subst this
  simp

theorem square_oneCol (w : Fin n → ℝ) :
    (crossProduct (oneCol n) w * crossProduct (oneCol n) w)⁻¹ = Matrix.of fun _ _ => ((∑ l, w l) ^ 2)⁻¹ := by
  rw [← inv_one_by_one, crossProduct_oneCol]
  congr 1
  ext a b
  simp [mul_apply, sq]

/-- **C122, refuted: the reported traces and standard errors depend on the unit of the regressor.** Three observations on a line with responses
1, 0, 0, one constant regressor, degree 0 and whatever parameters the minimiser picks (a scale other than 0): when the regressor is 2 instead
of 1 everywhere, the coefficients are halved, so the fitted values and the residual sum of squares are the same, but the reported trace of the
hat matrix is a quarter of what it was and the standard errors are not halved. -/
theorem C122_trace_depends_on_units {σ : (Fin 3 → ℝ) → Equiv.Perm (Fin 3)} (hσ : ∀ d, Sorts d (σ d)) {p : ℝ × ℝ}
    (hp : p.1 ≠ 0) (approx : Matrix (Fin 1) (Fin 1) ℝ → (Fin 1 → ℝ) → Option (Fin 1 → ℝ)) :
    ∃ r r', scaRun (exSca 0 σ (fun _ => p) approx) (oneCol 3) ![1, 0, 0] lineD = .ok (some r) ∧
      scaRun (exSca 0 σ (fun _ => p) approx) ((2 : ℝ) • oneCol 3) ![1, 0, 0] lineD = .ok (some r') ∧
      (∀ i, r'.fit.betas i 0 = r.fit.betas i 0 / 2) ∧ r'.diagnostic.RSS = r.diagnostic.RSS ∧
      0 < r.fit.trS ∧ r'.fit.trS = r.fit.trS / 4 ∧
      ∀ i, ∃ s s', r.se i 0 = .ok s ∧ r'.se i 0 = .ok s' ∧ 0 < s ∧ s' ≠ s / 2 := by
  obtain ⟨r, h, hs, hpen⟩ := ex_sca_report one_ne_zero (P := 0) hσ hp approx
  obtain ⟨r', h', hs', hpen'⟩ := ex_sca_report (two_ne_zero (α := ℝ)) (P := 0) hσ hp approx
  rw [one_smul] at h
  have hb : 0 < r.fit.scale := by rw [hs]; exact mul_self_pos.2 hp
  have ha : 0 ≤ r.fit.penalty := by rw [hpen]; exact mul_self_nonneg _
  have hq : min ⌊(exSca 0 σ (fun _ => p) approx).bw⌋₊ (3 - 1) = 2 := by unfold exSca; norm_num
  have hdet : ∀ W V, ScalablePair (if (exSca 0 σ (fun _ => p) approx).ker = .Gaussian then baseGauss else baseExp) lineD
      (min ⌊(exSca 0 σ (fun _ => p) approx).bw⌋₊ (3 - 1)) (exSca 0 σ (fun _ => p) approx).P r.fit.scale r.fit.penalty W V →
      ∀ i, Determined (oneCol 3) (W i) := by
    intro W V hW i
    rw [hq] at hW
    obtain ⟨-, -, ⟨l, hl⟩, -⟩ := pair_flat hb hW i
    exact oneCol_determined (j := l) (by rw [hl]; linarith)
  obtain ⟨hbeta, hrss, ht, ht2, hse⟩ := C122_units _ hσ (oneCol 3) ![1, 0, 0] lineD two_ne_zero h h' (hs'.trans hs.symm)
    (hpen'.trans hpen.symm) hdet
  obtain ⟨-, W, V, hpair, hr⟩ := C122_report _ hσ _ _ _ r h
  have R := hr (hdet _ _ hpair)
  rw [hq] at hpair
  have F := pair_flat hb hpair
  clear hdet hpair hr hs' hpen' hs hpen
  generalize r.fit.penalty = a at ha F
  have hM : 0 < 3 * a + 2 := by linarith
  have T1 : r.fit.trS = 3 / (3 * a + 2) ^ 2 := by
    rw [R.trS]
    unfold scalableTrace
    simp only [square_oneCol, (F _).1]
    simp [oneCol, dotProduct, mulVec]
    try ring
  have T2 : r.trStS = 3 * (3 * a ^ 2 + 4 * a + 2) / (3 * a + 2) ^ 4 := by
    rw [R.trStS]
    unfold scalableTrace2
    simp only [square_oneCol]
    simp only [crossProduct_oneCol, (F _).1, (F _).2.1]
    simp [oneCol, dotProduct, mulVec]
    try field_simp
  have hV2 : 3 * a ^ 2 + 4 * a + 2 ≤ (3 * a + 2) ^ 2 := by nlinarith
  have hT : 0 < r.fit.trS := by rw [T1]; positivity
  have hT34 : r.fit.trS ≤ 3 / 4 := by
    rw [T1, div_le_div_iff₀ (by positivity) (by norm_num)]; nlinarith
  have hT2 : 0 < r.trStS := by rw [T2]; positivity
  have hT21 : r.trStS ≤ r.fit.trS := by
    rw [T1, T2, div_le_div_iff₀ (by positivity) (by positivity)]
    have : (0 : ℝ) ≤ (3 * a + 2) ^ 2 := by positivity
    nlinarith [mul_le_mul_of_nonneg_right hV2 this]
  have e1 : 0 < (3 : ℕ) - 2 * r.fit.trS + r.trStS := by push_cast; linarith
  have e2 : 0 < (3 : ℕ) - 2 * r.fit.trS / 2 ^ 2 + r.trStS / 2 ^ 4 := by push_cast; linarith
  have hR : 0 < r.diagnostic.RSS := by
    rw [R.rss]
    refine Finset.sum_pos' (fun i _ => sq_nonneg _) ⟨0, Finset.mem_univ _, ?_⟩
    have hpd : (xtwx (oneCol 3) (W 0)).PosDef := (gram_posDef_iff_determined _ _ fun j => ha.trans ((F 0).2.2.2.1 j)).2 (by
      obtain ⟨l, hl⟩ := (F 0).2.2.1
      exact oneCol_determined (j := l) (by rw [hl]; linarith))
    have hm := oneCol_mean (y := ![1, 0, 0]) hpd
    rw [← wls_unique (R.betas 0) (isWLS_of_posDef hpd), (F 0).1] at hm
    simp only [Fin.sum_univ_three, cons_val_zero, cons_val_one, cons_val_two] at hm
    have h1 := (F 0).2.2.2.2 0
    have : r.fit.betas 0 0 ≠ 1 := by
      intro e
      rw [e] at hm
      simp at hm
      linarith
    have : (![1, 0, 0] : Fin 3 → ℝ) 0 - ∑ j, oneCol 3 0 j * r.fit.betas 0 j ≠ 0 := by
      simp [oneCol]
      intro e
      exact this (by linarith)
    positivity
  refine ⟨r, r', h, h', fun i => hbeta i 0, hrss, hT, by rw [ht]; norm_num, fun i => ?_⟩
  obtain ⟨v, hv, hs1, hs2⟩ := hse e1 e2 i 0
  have hvp : 0 < v := by
    have hse := R.se (by rw [← R.trS, ← R.trStS]; exact e1) i 0
    rw [hs1, ← R.trS, ← R.trStS, ← R.rss] at hse
    have hpos : 0 < scalableSpread (oneCol 3) W V i 0 := by
      unfold scalableSpread
      rw [square_oneCol, crossProduct_oneCol, (F i).1, (F i).2.1]
      refine Real.sqrt_pos.2 ?_
      simp [mul_apply]
      positivity
    by_contra hv0
    have : v = 0 := le_antisymm (not_lt.1 hv0) hv
    rw [this, mul_zero, Real.sqrt_zero] at hse
    have := Real.sqrt_pos.2 (mul_pos (div_pos hR e1) hpos)
    rw [← Res.ok.inj hse] at this
    exact lt_irrefl _ this
  refine ⟨_, _, hs1, hs2, Real.sqrt_pos.2 (mul_pos (div_pos hR e1) hvp), fun e => ?_⟩
  have := congrArg (· ^ 2) e
  simp only [div_pow] at this
  rw [Real.sq_sqrt (by positivity), Real.sq_sqrt (by positivity)] at this
  norm_num at this e1 e2
  rw [div_mul_div_comm, div_mul_eq_mul_div, div_div, div_eq_div_iff (by positivity) (by positivity)] at this
  have h0 : r.diagnostic.RSS * v ≠ 0 := (mul_pos hR hvp).ne'
  have h3 : (3 - 2 * r.fit.trS + r.trStS) * 4 = (3 - 2 * r.fit.trS / 4 + r.trStS / 16) * 8 := mul_left_cancel₀ h0 (by linarith)
  linarith

/-- Distances between four points at 0, 1, 2, 3 on a line. -/
def lineD4 (i j : Fin 4) : ℝ := |(i : ℝ) - j|

/-- A run on four points with responses 1, 0, 0, 0, an intercept only, the Akaike criterion, the Gaussian kernel, degree 0, a bandwidth of four
points and a minimiser that picks the scale 1 and the penalty 0. -/
def exScaAic (σ : (Fin 4 → ℝ) → Equiv.Perm (Fin 4)) (approx : Matrix (Fin 1) (Fin 1) ℝ → (Fin 1 → ℝ) → Option (Fin 1 → ℝ)) : ScaCfg 4 1 :=
  { crit := .AIC, P := 0, ker := .Gaussian, bw := 4, σ := σ, opt := fun _ => (1, 0), approx := approx }

theorem kth_pos {d : Fin n → ℝ} {i : Fin n} (h : ∀ j, j ≠ i → 0 < d j) {K : ℕ} (hK : 2 ≤ K) {r : ℝ} (hr : IsKthSmallest d K r) : 0 < r := by
  by_contra hn
  have hsub : {j | d j ≤ r} ⊆ {i} := by
    intro j hj
    by_contra hji
    exact absurd (h j hji) (not_lt.2 (le_trans hj (not_lt.1 hn)))
  have := Set.ncard_le_ncard hsub
  rw [Set.ncard_singleton] at this
  have := hr.2.2
  omega

theorem lineD4_pos (i j : Fin 4) (h : j ≠ i) : 0 < lineD4 i j := by
  unfold lineD4
  refine abs_pos.2 (sub_ne_zero.2 fun e => h ?_)
  exact (Fin.ext (by exact_mod_cast e)).symm

/-- The hypotheses of `C100_aic_value` are met by this run, for any sorting permutation. -/
theorem ex_sca_aic {σ : (Fin 4 → ℝ) → Equiv.Perm (Fin 4)} (hσ : ∀ d, Sorts d (σ d))
    (approx : Matrix (Fin 1) (Fin 1) ℝ → (Fin 1 → ℝ) → Option (Fin 1 → ℝ)) :
    ∃ r, scaFit (exScaAic σ approx) (oneCol 4) ![1, 0, 0, 0] lineD4 = .ok (some r) := by
  set y : Fin 4 → ℝ := ![1, 0, 0, 0] with hy
  obtain ⟨st, hst⟩ := (C37_works_partial (σ := σ) lineD4 (bw := 4) (by norm_num)).1 (by norm_num)
  have hcolpos : ∀ i, 0 < st.2 i := by
    obtain ⟨rows, hr, h⟩ := Res.bind_eq_ok'.1 hst
    obtain ⟨col, hcol, h⟩ := Res.bind_eq_ok'.1 h
    cases Res.ok.inj h
    have hr := Res.tabulate_eq_ok.1 hr
    have hc : scaCount 4 4 = 4 := by unfold scaCount; norm_num
    have hb : scaBw 4 4 = 3 := by unfold scaBw; norm_num
    simp only [scaBandColumn, hc, hb] at hcol
    norm_num at hcol
    intro i
    have := hr i
    simp only [scaDataNeighbours, hc] at this
    rw [scaNearest_ok (by omega) (by omega)] at this
    have hrow := (Res.ok.inj this).symm
    rw [← hcol]
    show 0 < (Option.map Prod.snd (rows i)[2]?).getD 0
    rw [hrow]
    have := sorted_kth (hσ (lineD4 i)) (K := 2) (cnt := 4) (by omega) (by omega) (by omega)
    have e := kth_pos (lineD4_pos i) le_rfl this
    simp only [List.map_cons, List.map_map, List.getElem?_cons_succ]
    exact e
  obtain ⟨nei, hnei⟩ := scaBaseRows_succeeds (ker := .Gaussian) (Or.inl rfl) st.1 (by norm_num) hcolpos
  obtain ⟨_, _, -, -, hw⟩ := search_weights hσ (Or.inl rfl) hst hnei 0 1 0
  have k1 : ∀ g, polyKernel 0 1 g = 1 := by intro g; simp [polyKernel]
  have hW : ∀ i j, polyWeight 0 1 0 (nei i) j = (if j = i then 1 else 0) + 1 := by
    intro i j
    obtain ⟨l, hl, h⟩ := hw i
    have hm : j ∈ l := by
      have hc : l.toFinset.card = 4 := by rw [List.toFinset_card_of_nodup hl.nodup, hl.length]; norm_num
      have : l.toFinset = Finset.univ := Finset.eq_univ_of_card _ (by rw [hc]; rfl)
      rw [← List.mem_toFinset, this]; exact Finset.mem_univ _
    have := h j
    simp only [k1, if_pos hm, mul_one, zero_add] at this
    exact this
  have hsum : ∀ i, ∑ j, polyWeight 0 1 0 (nei i) j = 5 := by
    intro i
    simp only [hW, Finset.sum_add_distrib, Finset.sum_ite_eq', Finset.mem_univ, if_true]
    norm_num
  have hW0 : ∀ i j, 0 ≤ polyWeight 0 1 0 (nei i) j := by intro i j; rw [hW]; split <;> norm_num
  have hpd : ∀ i, (xtwx (oneCol 4) (polyWeight 0 1 0 (nei i))).PosDef := fun i =>
    (gram_posDef_iff_determined _ _ (hW0 i)).2 (oneCol_determined (j := i) (by rw [hW]; norm_num))
  have hcr : ∃ cv, scaCriterion .AIC 0 (oneCol 4) y nei approx 1 0 = .ok cv ∧ cv < dblMax := by
    have hx : ∀ i, xtwx (oneCol 4) (polyWeight 0 1 0 (nei i)) = Matrix.of fun _ _ => (5 : ℝ) := by
      intro i
      ext a b
      rw [xtwx_apply, ← hsum i]
      simp [oneCol]
    have hdet : ¬ ∃ i, (xtwx (oneCol 4) (polyWeight 0 1 0 (nei i))).det < 1 / 10 ^ 10 := by
      push Not
      intro i
      rw [hx, det_fin_one]
      norm_num [Matrix.of_apply]
    set beta : Fin 4 → Fin 1 → ℝ := fun i =>
      (xtwx (oneCol 4) (polyWeight 0 1 0 (nei i)))⁻¹ *ᵥ (xtw (oneCol 4) (polyWeight 0 1 0 (nei i)) *ᵥ y) with hbeta
    have hb : ∀ i, beta i 0 = (if i = 0 then 2 else 1) / 5 := by
      intro i
      have e := oneCol_mean (y := y) (hpd i)
      rw [hsum] at e
      have : ∑ j, polyWeight 0 1 0 (nei i) j * y j = if i = 0 then 2 else 1 := by
        simp only [hW, hy, Fin.sum_univ_four]
        fin_cases i <;> simp <;> norm_num
      rw [this] at e
      rw [← e]
      simp only [hbeta]
      ring
    have hb1 : Res.tabulate 4 (fun i => scaSolve (xtwx (oneCol 4) (polyWeight 0 1 0 (nei i)))
        (xtw (oneCol 4) (polyWeight 0 1 0 (nei i)) *ᵥ y)) = .ok beta :=
      Res.tabulate_eq_ok.2 fun i => by rw [scaSolve_gram (hW0 i), if_pos (hpd i)]
    have ht : Res.tabulate 4 (fun i => scaTraceRow 0 (oneCol 4) y (nei i) 1 0 i) = .ok fun _ => (1 / 25 : ℝ) := by
      refine Res.tabulate_eq_ok.2 fun i => ?_
      unfold scaTraceRow
      rw [scaSystem_eq one_pos]
      simp only [Res.bind, invGeneral_square (hpd i), square_oneCol, hsum]
      simp [oneCol, dotProduct, mulVec]
      norm_num
    have hsse : ∑ i, (y i - oneCol 4 i ⬝ᵥ beta i) * (y i - oneCol 4 i ⬝ᵥ beta i) = 12 / 25 := by
      have h1 : ¬ ((1 : Fin 4) = 0) := by decide
      have h2 : ¬ ((2 : Fin 4) = 0) := by decide
      have h3 : ¬ ((3 : Fin 4) = 0) := by decide
      simp only [dotProduct, Fin.sum_univ_one, oneCol, Matrix.of_apply, one_mul, hb, Fin.sum_univ_four, if_true, if_neg h1, if_neg h2, if_neg h3]
      rw [show y 0 = 1 from rfl, show y 1 = 0 from rfl, show y 2 = 0 from rfl, show y 3 = 0 from rfl]
      norm_num
    have hl : 0 < Real.sqrt (12 / 25 / 4) := Real.sqrt_pos.2 (by norm_num)
    refine ⟨2 * 4 * Real.log (Real.sqrt (12 / 25 / 4)) + 4 * Real.log (2 * Real.pi) + 4 * (4 + 4 / 25) / (4 - 2 - 4 / 25), ?_, ?_⟩
    · unfold scaCriterion scaAIC
      simp only [mul_one, mul_zero, scaSystem_eq one_pos]
      rw [Res.tabulate_eq_ok.2 fun i => rfl]
      simp only [Res.bind]
      rw [if_neg hdet, hb1, ht]
      simp only [hsse]
      have e4 : ∑ _i : Fin 4, (1 / 25 : ℝ) = 4 / 25 := by rw [Fin.sum_univ_four]; norm_num
      have h4 : ((4 : ℕ) : ℝ) = 4 := by norm_num
      have hd : ¬ ((4 : ℝ) - 2 - 4 / 25 = 0) := by norm_num
      have hd4 : ¬ ((4 : ℝ) = 0) := by norm_num
      simp only [e4, h4, fdiv, flog, if_neg hd4, if_neg hd, if_neg (not_le.2 hl), Res.bind]
    · have h1 : Real.log (Real.sqrt (12 / 25 / 4)) ≤ 0 := Real.log_nonpos (Real.sqrt_nonneg _) (Real.sqrt_le_one.2 (by norm_num))
      have h2 : Real.log (2 * Real.pi) ≤ 2 * Real.pi - 1 := Real.log_le_sub_one_of_pos (by positivity)
      have h3 := Real.pi_le_four
      have h4 := hundred_lt_dblMax
      have h5 : (4 : ℝ) * (4 + 4 / 25) / (4 - 2 - 4 / 25) < 20 := by norm_num
      linarith
  obtain ⟨cv, hcv, hlt⟩ := hcr
  have hch : scaChoose (exScaAic σ approx) (oneCol 4) y lineD4 = .ok (some (1 * 1, 0 * 0, cv)) := by
    unfold scaChoose exScaAic
    simp only [true_or, if_true]
    rw [hst]
    simp only [Res.bind]
    rw [hnei]
    simp only [hcv, hlt, if_true]
  rw [one_mul, zero_mul] at hch
  have hbw : ⌊((scaBw (exScaAic σ approx).bw 4 : ℕ) : ℝ)⌋₊ = 3 := by
    rw [Nat.floor_natCast]; unfold scaBw exScaAic; norm_num
  obtain ⟨nei', hnei'⟩ := scaRows_succeeds (ker := .Gaussian) (Or.inl rfl) hσ lineD4 (by norm_num)
    (bw := (scaBw (exScaAic σ approx).bw 4 : ℕ)) (by rw [hbw]; norm_num) (by rw [hbw]; norm_num)
    (by rw [hbw]; intro i r hr; exact kth_pos (lineD4_pos i) (by norm_num) hr)
  obtain ⟨-, hg⟩ := scaRows_ok (Or.inl rfl) hσ hnei' 0 1 0
  choose beta hbeta using fun i => C36_coefficients (P := 0) (oneCol 4) y one_pos le_rfl (hg i)
  have ht : ∀ i, ∃ t, scaTraceRow 0 (oneCol 4) y (nei' i) 1 0 i = .ok t := by
    intro i
    unfold scaTraceRow
    rw [scaSystem_eq one_pos]
    simp only [Res.bind]
    split <;> exact ⟨_, rfl⟩
  choose t ht using ht
  unfold scaFit
  rw [hch]
  change ∃ r, (scaRows KernelType.Gaussian (scaBw (exScaAic σ approx).bw 4 : ℕ) σ lineD4).bind _ = _
  rw [hnei']
  change ∃ r, (Res.tabulate 4 fun i => scaFitRow 0 (oneCol 4) y (nei' i) 1 0).bind _ = _
  rw [Res.tabulate_eq_ok.2 fun i => (hbeta i).1]
  change ∃ r, (Res.tabulate 4 fun i => scaTraceRow 0 (oneCol 4) y (nei' i) 1 0 i).bind _ = _
  rw [Res.tabulate_eq_ok.2 ht]
  exact ⟨_, rfl⟩

end Verif.Props

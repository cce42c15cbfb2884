import Verif.Model.SummaryRun
import Verif.Spec.SummaryTables
import Verif.Props.KernelWeight
import Verif.Props.GWSS
import Verif.Props.GWPCA
import Verif.Props.GWRGeneralized
import Verif.Lemmas.RightSVD

/-! Whole runs of local summary statistics and of local principal components (C115, C116, C117). -/

namespace Verif.Props
open Verif Verif.Model Verif.Spec Matrix Classical

variable {n k p : ℕ} {ord : (Fin n → ℝ) → Equiv.Perm (Fin n)} {X X' : Fin n → Fin k → ℝ} {W : Fin n → Fin n → ℝ}

/-- The distance object and the coordinates fit the data: two-dimensional coordinates, one row per observation. -/
def FitsData (coords : DynMat) (n : ℕ) : Prop := coords.nCols = 2 ∧ coords.nRows = n

theorem usable_of_self {w : Fin n → ℝ} (h0 : ∀ l, 0 ≤ w l) (i : Fin n) (h1 : w i = 1) : Usable w := ⟨h0, i, by rw [h1]; exact one_pos⟩

theorem share_eq_shareOf (w : Fin n → ℝ) : share w = shareOf w := rfl

/-- The weights of a run, and the run without its first steps. -/
theorem summary_weights {geo : Bool} {par : Option (DynMat × DynMat)} {coords : DynMat} {b : BandwidthWeight} {dist : Fin n → Fin n → ℝ}
    (hc : FitsData coords n) (hd : IsMapDistance geo coords coords dist) (hb : UsableRadius b dist) (ex : Exec n) :
    ∃ W d', bindLocations ⟨geo, par⟩ coords coords = .ok d' ∧ summaryEscape ex (weightRows d' b n n) = .ok W ∧ IsKernelWeight b dist W ∧
      (∀ i, Usable (W i)) ∧ weightRows d' b n n = .ok W := by
  obtain ⟨W, h1, h2, h3⟩ := kernelRows hc.2 hc.2 hd hb id
  refine ⟨W, _, bindLocations_eq_ok.2 ⟨hc.1, hc.1, rfl⟩, ?_, h2, fun i => usable_of_self (h3 i) i (selfWeight hd hb h2 i), h1⟩
  rw [h1]; cases ex <;> rfl

theorem avgRow_noq (ord : (Fin n → ℝ) → Equiv.Perm (Fin n)) (X : Fin n → Fin k → ℝ) (w : Fin n → ℝ) (hn : 0 < n) :
    ∃ r, avgRow ord X false w hn = .ok r := ⟨_, rfl⟩

theorem average_noq (W : Fin n → Fin n → ℝ) {ex : Exec n} (hex : ex.Valid) :
    ∃ rows, gwAverageEx ord X false W ex = .ok rows ∧ gwAverageSerial ord X false W (fun _ => false) = .ok (rows, false) := by
  choose r hr using fun i : Fin n => avgRow_noq ord X (W i) i.pos
  have hs : gwAverageSerial ord X false W (fun _ => false) = .ok (r, false) := rowsSerial_ok (fun _ => rfl) r hr _
  refine ⟨r, ?_, hs⟩
  cases ex with
  | serial => simp only [gwAverageEx, hs, Res.bind]
  | omp evs =>
    have := (C59_average_parallel ord X false W (stop := fun _ => false) (fun _ => rfl) hex r).2 hs
    simp only [gwAverageEx, this, Res.bind]

theorem row_summary {quantile : Bool} {rows : Fin n → AvgRow k} (h : gwAverageSerial ord X quantile W (fun _ => false) = .ok (rows, false))
    (hW : ∀ i, Usable (W i)) (i : Fin n) (j : Fin k) :
    IsSummary (shareOf (W i)) (fun l => X l j) ((rows i).mean j) ((rows i).var j) ((rows i).sd j) ((rows i).skew j) (lcv (rows i) j) := by
  obtain ⟨h1, h2, h3⟩ := avg_fields (hW i) (avg_row h i) j
  obtain ⟨g1, g2, g3, g4⟩ := C40_shape h i (hW i) j
  rw [share_eq_shareOf] at *
  refine ⟨h1, h2, ?_, ?_, ?_⟩
  · exact h3
  · have hv : 0 ≤ wvar (shareOf (W i)) fun l => X l j :=
      Finset.sum_nonneg fun l _ => mul_nonneg (div_nonneg ((hW i).1 l) (hW i).sum_pos.le) (sq_nonneg _)
    by_cases h0 : (wvar (shareOf (W i)) fun l => X l j) = 0
    · rw [if_pos h0]; exact g2 h0
    · rw [if_neg h0]; exact g1 (lt_of_le_of_ne hv (Ne.symm h0))
  · by_cases h0 : (wmean (shareOf (W i)) fun l => X l j) = 0
    · rw [if_pos h0]; exact g4 h0
    · rw [if_neg h0]; exact g3 h0

/-- **C115 (averages).** A run in average mode without quantiles always succeeds if the bandwidth gives every location a positive radius, serially and
under every schedule of the threads. Its tables hold, for every location and variable, the mean, variance, standard deviation, skewness and coefficient
of variation, weighted by the kernel of the distances between the observations' coordinates; skewness and coefficient of variation are not numbers
exactly if the variance, resp. the mean, is zero. -/
theorem C115_average {geo : Bool} {par : Option (DynMat × DynMat)} {coords : DynMat} {b : BandwidthWeight} {dist : Fin n → Fin n → ℝ}
    (hc : FitsData coords n) (hd : IsMapDistance geo coords coords dist) (hb : UsableRadius b dist) {ex : Exec n} (hex : ex.Valid) :
    ∃ (t : AvgTable n k) (W : Fin n → Fin n → ℝ), gwssAverageRun ord ⟨geo, par⟩ b coords X false ex = .ok t ∧ IsKernelWeight b dist W ∧
      ∀ i j, IsSummary (shareOf (W i)) (fun l => X l j) ((t.rows i).mean j) ((t.rows i).var j) ((t.rows i).sd j) ((t.rows i).skew j) (t.lcv i j) := by
  obtain ⟨W, d', h1, h2, h3, h4, -⟩ := summary_weights (par := par) hc hd hb ex
  obtain ⟨rows, h5, h6⟩ := average_noq (ord := ord) (X := X) W hex
  refine ⟨⟨rows, fun i => lcv (rows i)⟩, W, ?_, h3, fun i j => row_summary h6 h4 i j⟩
  unfold gwssAverageRun
  simp only [h1, h2, h5, Res.bind]

theorem averageEx_ub_or (hord : ∀ x, Sorts x (ord x)) (hW : ∀ i, Usable (W i)) {ex : Exec n} (hex : ex.Valid) :
    (∃ rows, gwAverageEx ord X true W ex = .ok rows ∧ gwAverageSerial ord X true W (fun _ => false) = .ok (rows, false)) ∨
    (gwAverageEx ord X true W ex = .ub ∧ gwAverageSerial ord X true W (fun _ => false) = .ub) := by
  rcases (C42_defined_iff (X := X) (stop := fun _ => false) hord hW fun _ => rfl).2 with ⟨rows, h⟩ | h
  · left
    refine ⟨rows, ?_, h⟩
    cases ex with
    | serial => simp only [gwAverageEx, h, Res.bind]
    | omp evs =>
      have := (C59_average_parallel ord X true W (stop := fun _ => false) (fun _ => rfl) hex rows).2 h
      simp only [gwAverageEx, this, Res.bind]
  · right
    refine ⟨?_, h⟩
    cases ex with
    | serial => simp only [gwAverageEx, h, Res.bind]
    | omp evs =>
      have : ∃ i, ∀ r, avgRow ord X true (W i) i.pos ≠ .ok r := by
        by_contra hall
        push Not at hall
        choose r hr using hall
        have e : gwAverageSerial ord X true W (fun _ => false) = .ok (r, false) := rowsSerial_ok (fun _ => rfl) r hr _
        rw [h] at e; cases e
      obtain ⟨i, hi⟩ := this
      have := omp_fail (g := fun i => avgRow ord X true (W i) i.pos) (upd := fun (_ : Fin _) i r (a : Fin n → AvgRow k) => Function.update a i r)
        (stop := fun _ => false) (fun _ => rfl) (fun _ => AvgRow.zero) (List.nodup_finRange n) hex i (List.mem_finRange i) hi
      simp only [gwAverageEx, gwAverageOmp, this, Bool.false_eq_true, if_false, Res.bind]

/-- **C115 (quantiles).** With quantiles, the run succeeds exactly if at every location, for every variable, the observation sorted first has at most a
quarter of the kernel weights; otherwise its behaviour is undefined. If it succeeds, the quantile tables hold the weighted quartiles and the measures
made from them, and the other tables are as without quantiles. Serially and under every schedule of the threads. -/
theorem C115_quantiles {geo : Bool} {par : Option (DynMat × DynMat)} {coords : DynMat} {b : BandwidthWeight} {dist : Fin n → Fin n → ℝ}
    (hord : ∀ x, Sorts x (ord x)) (hc : FitsData coords n) (hd : IsMapDistance geo coords coords dist) (hb : UsableRadius b dist) {ex : Exec n}
    (hex : ex.Valid) {W : Fin n → Fin n → ℝ} (hW : IsKernelWeight b dist W) :
    ((∀ (i : Fin n) (j : Fin k), W i (ord (fun l => X l j) ⟨0, i.pos⟩) ≤ (∑ l, W i l) / 4) →
      ∃ t : AvgTable n k, gwssAverageRun ord ⟨geo, par⟩ b coords X true ex = .ok t ∧ ∀ i j,
        IsSummary (shareOf (W i)) (fun l => X l j) ((t.rows i).mean j) ((t.rows i).var j) ((t.rows i).sd j) ((t.rows i).skew j) (t.lcv i j) ∧
        ∃ q, IsQuartiles (shareOf (W i)) (fun l => X l j) q ((t.rows i).median j) ((t.rows i).iqr j) ((t.rows i).qi j)) ∧
    ((∃ (i : Fin n) (j : Fin k), (∑ l, W i l) / 4 < W i (ord (fun l => X l j) ⟨0, i.pos⟩)) →
      gwssAverageRun ord ⟨geo, par⟩ b coords X true ex = .ub) := by
  obtain ⟨W', d', h1, h2, h3, h4, -⟩ := summary_weights (par := par) hc hd hb ex
  cases kernelWeight_unique hW h3
  have hiff := (C42_defined_iff (X := X) (stop := fun _ => false) hord h4 fun _ => rfl).1
  constructor
  · intro hq
    rcases averageEx_ub_or (X := X) hord h4 hex with ⟨rows, h5, h6⟩ | ⟨-, h6⟩
    · refine ⟨⟨rows, fun i => lcv (rows i)⟩, ?_, fun i j => ⟨row_summary h6 h4 i j, ?_⟩⟩
      · unfold gwssAverageRun
        simp only [h1, h2, h5, Res.bind]
      · obtain ⟨q, q1, q2, q3, q4, q5, q6⟩ := C42_quartiles_partial hord h6 i (h4 i) j
        refine ⟨q, q1, q2, q3, ?_⟩
        by_cases h0 : q 2 - q 0 = 0
        · rw [if_pos h0]; exact q5 (by linarith)
        · rw [if_neg h0]
          obtain ⟨z, hz, e, -⟩ := q6 (fun e => h0 (by linarith))
          rw [hz, ← e, mul_div_cancel_right₀ _ h0]
    · obtain ⟨rows, e⟩ := hiff.2 hq
      rw [h6] at e; cases e
  · rintro ⟨i, j, hlt⟩
    rcases averageEx_ub_or (X := X) hord h4 hex with ⟨rows, h5, h6⟩ | ⟨h5, -⟩
    · exact absurd (hiff.1 ⟨rows, h6⟩ i j) (not_le.2 hlt)
    · unfold gwssAverageRun
      simp only [h1, h2, h5, Res.bind]

/-- **C115, refuted for quantiles.** If for some variable the observation sorted first has less than four effective neighbours — the kernel weights at its
own location add up to less than 4 — the run with quantiles has undefined behaviour. In particular there are no local quantiles of fewer than four
observations, whatever the kernel and bandwidth. -/
theorem C115_quantiles_need_four {geo : Bool} {par : Option (DynMat × DynMat)} {coords : DynMat} {b : BandwidthWeight} {dist : Fin n → Fin n → ℝ}
    (hord : ∀ x, Sorts x (ord x)) (hc : FitsData coords n) (hd : IsMapDistance geo coords coords dist) (hb : UsableRadius b dist) {ex : Exec n}
    (hex : ex.Valid) {W : Fin n → Fin n → ℝ} (hW : IsKernelWeight b dist W) (j : Fin k) (h0 : 0 < n) :
    (∑ l, W (ord (fun l => X l j) ⟨0, h0⟩) l < 4 → gwssAverageRun ord ⟨geo, par⟩ b coords X true ex = .ub) ∧
    (n < 4 → gwssAverageRun ord ⟨geo, par⟩ b coords X true ex = .ub) := by
  have key : ∑ l, W (ord (fun l => X l j) ⟨0, h0⟩) l < 4 → gwssAverageRun ord ⟨geo, par⟩ b coords X true ex = .ub := by
    intro hlt
    refine (C115_quantiles hord hc hd hb hex hW).2 ⟨ord (fun l => X l j) ⟨0, h0⟩, j, ?_⟩
    rw [selfWeight hd hb hW]
    linarith
  refine ⟨key, fun hn => key ?_⟩
  calc ∑ l, W (ord (fun l => X l j) ⟨0, h0⟩) l ≤ ∑ _l : Fin n, (1 : ℝ) :=
        Finset.sum_le_sum fun l _ => kernelWeight_le_one hb (mapDistance_nonneg hd) hW _ l
    _ = n := by simp
    _ < 4 := by exact_mod_cast hn

/-- **C115 (correlations).** A run in correlation mode with at least two variables always succeeds if the bandwidth gives every location a positive radius,
serially and under every schedule of the threads. Its tables hold the kernel-weighted means, variances, covariances, correlations and rank correlations
of the pairs of variables, not numbers exactly where these are undefined. -/
theorem C115_correlation {geo : Bool} {par : Option (DynMat × DynMat)} {coords : DynMat} {b : BandwidthWeight} {dist : Fin n → Fin n → ℝ}
    (hord : ∀ x, Sorts x (ord x)) (hk : 2 ≤ k) (hc : FitsData coords n) (hd : IsMapDistance geo coords coords dist) (hb : UsableRadius b dist)
    (firstOnly : Bool) {ex : Exec n} (hex : ex.Valid) :
    ∃ (t : Fin n → CorrRow k (corrCols k firstOnly)) (W : Fin n → Fin n → ℝ) (pair : Fin (corrCols k firstOnly) → Fin k × Fin k)
      (R : Fin k → Fin n → ℝ), gwssCorrelationRun ord ⟨geo, par⟩ b coords X firstOnly ex = .ok t ∧ IsKernelWeight b dist W ∧
      IsPairing firstOnly pair ∧ (∀ j, IsRanking (fun l => X l j) (R j)) ∧
      ∀ i, (∀ j, (t i).mean j = some (wmean (shareOf (W i)) fun l => X l j) ∧ (t i).var j = some (wvar (shareOf (W i)) fun l => X l j)) ∧
        ∀ c, IsPairSummary (shareOf (W i)) (fun l => X l (pair c).1) (fun l => X l (pair c).2) (R (pair c).1) (R (pair c).2) ((t i).cols c).1
          ((t i).cols c).2.1 ((t i).cols c).2.2 := by
  obtain ⟨W, d', h1, h2, h3, h4, -⟩ := summary_weights (par := par) hc hd hb ex
  obtain ⟨rows, pair, R, g1, g2, g3, g4, g5⟩ := C40_correlation_table hk hord X firstOnly W (stop := fun _ => false) fun _ => rfl
  have hrun : gwCorrelationEx ord X firstOnly W ex = .ok rows := by
    cases ex with
    | serial => simp only [gwCorrelationEx, g1, Res.bind]
    | omp evs =>
      obtain ⟨rows', e1, e2⟩ := C59_correlation_parallel hk ord X firstOnly W (stop := fun _ => false) (fun _ => rfl) hex
      rw [g1] at e2
      cases Res.ok.inj e2
      simp only [gwCorrelationEx, e1, Res.bind]
  refine ⟨rows, W, pair, R, ?_, h3, ⟨g2, g3⟩, g4, fun i => ?_⟩
  · unfold gwssCorrelationRun
    simp only [h1, h2, Res.bind, if_neg (not_lt.2 hk), hrun]
  · obtain ⟨a1, a2⟩ := g5 i (h4 i)
    refine ⟨a1, fun c => ?_⟩
    obtain ⟨c1, c2, c3, c4⟩ := a2 c
    refine ⟨?_, c3, c4⟩
    by_cases he : ∑ l, shareOf (W i) l ^ 2 = 1
    · rw [if_pos he]; exact c2 he
    · rw [if_neg he]; exact c1 he

/-! ## Units -/

theorem wmean_affine {p x : Fin n → ℝ} (hp : ∑ l, p l = 1) (a c : ℝ) : wmean p (fun l => a * x l + c) = a * wmean p x + c := by
  simp only [wmean]
  calc ∑ l, p l * (a * x l + c) = ∑ l, (a * (p l * x l) + c * p l) := Finset.sum_congr rfl fun l _ => by ring
    _ = a * ∑ l, p l * x l + c * ∑ l, p l := by rw [Finset.sum_add_distrib, Finset.mul_sum, Finset.mul_sum]
    _ = _ := by rw [hp, mul_one]

theorem wcov_affine {p x y : Fin n → ℝ} (hp : ∑ l, p l = 1) (a c a' c' : ℝ) :
    wcov p (fun l => a * x l + c) (fun l => a' * y l + c') = a * a' * wcov p x y := by
  simp only [wcov, wmean_affine hp, Finset.mul_sum]
  exact Finset.sum_congr rfl fun l _ => by ring

theorem wvar_affine {p x : Fin n → ℝ} (hp : ∑ l, p l = 1) (a c : ℝ) : wvar p (fun l => a * x l + c) = a ^ 2 * wvar p x := by
  simp only [wvar, wmean_affine hp, Finset.mul_sum]
  exact Finset.sum_congr rfl fun l _ => by ring

theorem wthird_affine {p x : Fin n → ℝ} (hp : ∑ l, p l = 1) (a c : ℝ) : wthird p (fun l => a * x l + c) = a ^ 3 * wthird p x := by
  simp only [wthird, wmean_affine hp, Finset.mul_sum]
  exact Finset.sum_congr rfl fun l _ => by ring

theorem shareOf_sum {w : Fin n → ℝ} (h : Usable w) : ∑ l, shareOf w l = 1 := by
  simp only [shareOf, ← Finset.sum_div]
  exact div_self h.sum_pos.ne'

/-- -1, 0 or 1. -/
noncomputable def sgn (a : ℝ) : ℝ := a / |a|

theorem summary_affine {p x : Fin n → ℝ} (hp : ∑ l, p l = 1) {a c : ℝ} {m v s k' z m' v' s' k'' z' : Option ℝ} (h : IsSummary p x m v s k' z)
    (h' : IsSummary p (fun l => a * x l + c) m' v' s' k'' z') :
    m' = m.map (fun m => a * m + c) ∧ v' = v.map (fun v => a ^ 2 * v) ∧ s' = s.map (fun s => |a| * s) ∧
      (a ≠ 0 → k'' = k'.map fun k => sgn a * k) ∧ (a ≠ 0 → c = 0 → z' = z.map fun z => sgn a * z) := by
  have hs : √(a ^ 2 * wvar p x) = |a| * √(wvar p x) := by rw [Real.sqrt_mul (sq_nonneg a), Real.sqrt_sq_eq_abs]
  refine ⟨?_, ?_, ?_, fun ha => ?_, fun ha hc => ?_⟩
  · rw [h'.mean, h.mean, wmean_affine hp]; rfl
  · rw [h'.var, h.var, wvar_affine hp]; rfl
  · rw [h'.sd, h.sd, wvar_affine hp, hs]; rfl
  · rw [h'.skew, h.skew, wvar_affine hp, wthird_affine hp, hs]
    by_cases h0 : wvar p x = 0
    · simp [h0]
    · rw [if_neg h0, if_neg (mul_ne_zero (pow_ne_zero 2 ha) h0)]
      simp only [Option.map_some, Option.some.injEq, sgn]
      have h1 : |a| ≠ 0 := abs_ne_zero.2 ha
      have h2 : |a| ^ 2 = a ^ 2 := sq_abs a
      rw [mul_pow, mul_div_mul_comm]
      congr 1
      have h3 : |a| ^ 3 = a ^ 2 * |a| := by rw [← h2]; ring
      rw [h3, show a ^ 3 = a ^ 2 * a by ring, mul_div_mul_left _ _ (pow_ne_zero 2 ha)]
  · subst hc
    rw [h'.lcv, h.lcv, wvar_affine hp, wmean_affine hp, hs, add_zero]
    by_cases h0 : wmean p x = 0
    · simp [h0]
    · rw [if_neg h0, if_neg (mul_ne_zero ha h0)]
      simp only [Option.map_some, Option.some.injEq, sgn]
      have h1 : |a| ≠ 0 := abs_ne_zero.2 ha
      rw [mul_div_mul_comm]
      congr 1
      rw [div_eq_div_iff ha h1, abs_mul_abs_self]

/-- **C116 (units of the variables, averages).** Measuring every variable in another unit and from another origin, `x` becoming `a x + c`, changes the
tables of the average mode as it must: the means like the variable, the variances by `a²`, the standard deviations by `|a|`, the skewness by the sign of
`a`, and (if only the unit changes) the coefficients of variation by the sign of `a`. -/
theorem C116_average_units {geo : Bool} {par : Option (DynMat × DynMat)} {coords : DynMat} {b : BandwidthWeight} {dist : Fin n → Fin n → ℝ}
    (hc : FitsData coords n) (hd : IsMapDistance geo coords coords dist) (hb : UsableRadius b dist) {ex : Exec n} (hex : ex.Valid) (a c : Fin k → ℝ)
    (hX : ∀ l j, X' l j = a j * X l j + c j) :
    ∃ t t' : AvgTable n k, gwssAverageRun ord ⟨geo, par⟩ b coords X false ex = .ok t ∧ gwssAverageRun ord ⟨geo, par⟩ b coords X' false ex = .ok t' ∧
      ∀ i j, (t'.rows i).mean j = ((t.rows i).mean j).map (fun m => a j * m + c j) ∧ (t'.rows i).var j = ((t.rows i).var j).map (fun v => a j ^ 2 * v) ∧
        (t'.rows i).sd j = ((t.rows i).sd j).map (fun s => |a j| * s) ∧
        (a j ≠ 0 → (t'.rows i).skew j = ((t.rows i).skew j).map fun s => sgn (a j) * s) ∧
        (a j ≠ 0 → c j = 0 → t'.lcv i j = (t.lcv i j).map fun z => sgn (a j) * z) := by
  obtain ⟨W, -, -, -, h3, h4, -⟩ := summary_weights (par := par) hc hd hb ex
  obtain ⟨t, W1, r1, w1, s1⟩ := C115_average (ord := ord) (X := X) (par := par) hc hd hb hex
  obtain ⟨t', W2, r2, w2, s2⟩ := C115_average (ord := ord) (X := X') (par := par) hc hd hb hex
  cases kernelWeight_unique h3 w1
  cases kernelWeight_unique h3 w2
  refine ⟨t, t', r1, r2, fun i j => ?_⟩
  have e : (fun l => X' l j) = fun l => a j * X l j + c j := funext fun l => hX l j
  have := s2 i j
  rw [e] at this
  exact summary_affine (shareOf_sum (h4 i)) (s1 i j) this

/-- The columns of the correlation tables are determined. -/
theorem pairing_unique {firstOnly : Bool} {c : ℕ} {f g : Fin c → Fin k × Fin k} (hf : IsPairing firstOnly f) (hg : IsPairing firstOnly g) : f = g := by
  have mono : ∀ {f : Fin c → Fin k × Fin k}, IsPairing firstOnly f → StrictMono fun a => toLex (f a) := fun hf a a' h => by
    rw [Prod.Lex.toLex_lt_toLex]; exact hf.lex a a' h
  have hr : Set.range (fun a => toLex (f a)) = Set.range fun a => toLex (g a) := by
    ext z
    constructor
    · rintro ⟨a, rfl⟩
      obtain ⟨a', h⟩ := (hg.all (f a).1 (f a).2).2 ((hf.all _ _).1 ⟨a, rfl⟩)
      exact ⟨a', by simp only [h]⟩
    · rintro ⟨a, rfl⟩
      obtain ⟨a', h⟩ := (hf.all (g a).1 (g a).2).2 ((hg.all _ _).1 ⟨a, rfl⟩)
      exact ⟨a', by simp only [h]⟩
  have := (StrictMono.range_inj (mono hf) (mono hg)).1 hr
  exact funext fun a => toLex.injective (congrFun this a)

/-- The rank of an observation, if no two have the same value, is the number of observations with at most its value. -/
theorem ranking_count {x r : Fin n → ℝ} (h : IsRanking x r) (hx : Function.Injective x) (l : Fin n) : r l = ({m | x m ≤ x l} : Finset (Fin n)).card := by
  obtain ⟨h1, h2, h3⟩ := h
  choose q q1 q2 q3 using h1
  have hle : ∀ m, x m ≤ x l ↔ q m ≤ q l := by
    intro m
    constructor
    · intro hm
      rcases hm.lt_or_eq with hm | hm
      · have := h3 m l hm
        rw [q3, q3] at this
        exact_mod_cast this.le
      · rw [hx hm]
    · intro hm
      by_contra hc
      have := h3 l m (not_le.1 hc)
      rw [q3, q3] at this
      have : q l < q m := by exact_mod_cast this
      omega
  have hsurj : ∀ t, 1 ≤ t → t ≤ n → ∃ m, q m = t := fun t t1 t2 => by
    obtain ⟨m, hm⟩ := h2 t t1 t2
    rw [q3] at hm
    exact ⟨m, by exact_mod_cast hm⟩
  have hcard : ({m | x m ≤ x l} : Finset (Fin n)).card = q l := by
    have himg : ({m | x m ≤ x l} : Finset (Fin n)).image q = Finset.Icc 1 (q l) := by
      ext t
      simp only [Finset.mem_image, Finset.mem_filter, Finset.mem_univ, true_and, Finset.mem_Icc, hle]
      constructor
      · rintro ⟨m, hm, rfl⟩; exact ⟨q1 m, hm⟩
      · rintro ⟨t1, t2⟩
        obtain ⟨m, rfl⟩ := hsurj t t1 (t2.trans (q2 l))
        exact ⟨m, t2, rfl⟩
    have hinj : Set.InjOn q ({m | x m ≤ x l} : Finset (Fin n)) := by
      intro m _ m' _ e
      by_contra hne
      rcases lt_or_gt_of_ne (fun e => hne (hx e)) with hlt | hlt
      · have := h3 _ _ hlt; rw [q3, q3, e] at this; exact lt_irrefl _ this
      · have := h3 _ _ hlt; rw [q3, q3, e] at this; exact lt_irrefl _ this
    rw [← Finset.card_image_of_injOn hinj, himg, Nat.card_Icc]; omega
  rw [hcard, q3]

theorem wcor_affine {p x y : Fin n → ℝ} (hp : ∑ l, p l = 1) {a c a' c' : ℝ} (ha : a ≠ 0) (ha' : a' ≠ 0) :
    wcor p (fun l => a * x l + c) (fun l => a' * y l + c') = (wcor p x y).map fun z => sgn a * sgn a' * z := by
  unfold wcor
  rw [wvar_affine hp, wvar_affine hp, wcov_affine hp]
  have e1 : 0 < a ^ 2 * wvar p x ↔ 0 < wvar p x := mul_pos_iff_of_pos_left (by positivity)
  have e2 : 0 < a' ^ 2 * wvar p y ↔ 0 < wvar p y := mul_pos_iff_of_pos_left (by positivity)
  by_cases h : 0 < wvar p x ∧ 0 < wvar p y
  · rw [if_pos h, if_pos ⟨e1.2 h.1, e2.2 h.2⟩]
    have : a ^ 2 * wvar p x * (a' ^ 2 * wvar p y) = (a * a') ^ 2 * (wvar p x * wvar p y) := by ring
    rw [this, Real.sqrt_mul (sq_nonneg _), Real.sqrt_sq_eq_abs, abs_mul]
    simp only [Option.map_some, Option.some.injEq, sgn]
    rw [mul_div_mul_comm, mul_div_mul_comm]
  · rw [if_neg h, if_neg fun g => h ⟨e1.1 g.1, e2.1 g.2⟩]; rfl

/-- **C116 (units of the variables, correlations).** Measuring every variable in another unit and from another origin multiplies the covariances by both
units and the correlations by both signs. If no two observations have the same value of a variable, the rank correlations do not change under an
increasing change of unit. -/
theorem C116_correlation_units {geo : Bool} {par : Option (DynMat × DynMat)} {coords : DynMat} {b : BandwidthWeight} {dist : Fin n → Fin n → ℝ}
    (hord : ∀ x, Sorts x (ord x)) (hk : 2 ≤ k) (hc : FitsData coords n) (hd : IsMapDistance geo coords coords dist) (hb : UsableRadius b dist)
    (firstOnly : Bool) {ex : Exec n} (hex : ex.Valid) (a c : Fin k → ℝ) (hX : ∀ l j, X' l j = a j * X l j + c j) :
    ∃ (t t' : Fin n → CorrRow k (corrCols k firstOnly)) (pair : Fin (corrCols k firstOnly) → Fin k × Fin k),
      gwssCorrelationRun ord ⟨geo, par⟩ b coords X firstOnly ex = .ok t ∧ gwssCorrelationRun ord ⟨geo, par⟩ b coords X' firstOnly ex = .ok t' ∧
      IsPairing firstOnly pair ∧ ∀ i q,
        ((t' i).cols q).1 = ((t i).cols q).1.map (fun z => a (pair q).1 * a (pair q).2 * z) ∧
        (a (pair q).1 ≠ 0 → a (pair q).2 ≠ 0 →
          ((t' i).cols q).2.1 = ((t i).cols q).2.1.map fun z => sgn (a (pair q).1) * sgn (a (pair q).2) * z) ∧
        ((∀ j, 0 < a j ∧ Function.Injective fun l => X l j) → ((t' i).cols q).2.2 = ((t i).cols q).2.2) := by
  obtain ⟨W, -, -, -, h3, h4, -⟩ := summary_weights (par := par) hc hd hb ex
  obtain ⟨t, W1, pair, R, r1, w1, p1, k1, s1⟩ := C115_correlation (X := X) (par := par) hord hk hc hd hb firstOnly hex
  obtain ⟨t', W2, pair', R', r2, w2, p2, k2, s2⟩ := C115_correlation (X := X') (par := par) hord hk hc hd hb firstOnly hex
  cases kernelWeight_unique h3 w1
  cases kernelWeight_unique h3 w2
  cases pairing_unique p1 p2
  have e : ∀ j, (fun l => X' l j) = fun l => a j * X l j + c j := fun j => funext fun l => hX l j
  refine ⟨t, t', pair, r1, r2, p1, fun i q => ?_⟩
  have u1 := (s1 i).2 q
  have u2 := (s2 i).2 q
  have hp := shareOf_sum (h4 i)
  rw [e, e] at u2
  refine ⟨?_, fun ha ha' => ?_, fun hpos => ?_⟩
  · rw [u2.cov, u1.cov, wcov_affine hp]
    by_cases h0 : ∑ l, shareOf (W i) l ^ 2 = 1
    · simp [h0]
    · simp only [if_neg h0, Option.map_some, mul_div_assoc]
  · rw [u2.cor, u1.cor, wcor_affine hp ha ha']
  · have hR : ∀ j, R' j = R j := by
      intro j
      funext l
      have hi : Function.Injective fun l => X' l j := by
        rw [e]
        intro l l' h
        exact (hpos j).2 (mul_left_cancel₀ (hpos j).1.ne' (add_right_cancel h))
      rw [ranking_count (k2 j) hi, ranking_count (k1 j) (hpos j).2]
      congr 2
      ext m
      simp only [hX, add_le_add_iff_right, mul_le_mul_iff_right₀ (hpos j).1]
    rw [u2.rankCor, u1.rankCor, hR, hR]

/-- **C116 (the map).** Results depend on the map only through the distances: moving or turning the map, or any other change of coordinates that leaves
all distances as they were, changes nothing; a change that multiplies all distances by the same number changes nothing if a fixed bandwidth is changed
with them; with an adaptive bandwidth nothing needs to be changed. This holds for both modes, with and without quantiles, including the undefined
behaviour. -/
theorem C116_map {geo geo' : Bool} {par par' : Option (DynMat × DynMat)} {coords coords' : DynMat} {b b' : BandwidthWeight}
    {dist dist' : Fin n → Fin n → ℝ} (hc : FitsData coords n) (hc' : FitsData coords' n) (hd : IsMapDistance geo coords coords dist)
    (hd' : IsMapDistance geo' coords' coords' dist') (hb : UsableRadius b dist) {s : ℝ} (hs : 0 < s) (hdist : ∀ i l, dist' i l = s * dist i l)
    (hk : b'.mKernel = b.mKernel) (ha : b'.mAdaptive = b.mAdaptive)
    (hbw : b'.mBandwidth = if b.mAdaptive = true then b.mBandwidth else s * b.mBandwidth) (ex : Exec n) (quantile firstOnly : Bool) :
    gwssAverageRun ord ⟨geo', par'⟩ b' coords' X quantile ex = gwssAverageRun ord ⟨geo, par⟩ b coords X quantile ex ∧
    gwssCorrelationRun ord ⟨geo', par'⟩ b' coords' X firstOnly ex = gwssCorrelationRun ord ⟨geo, par⟩ b coords X firstOnly ex := by
  obtain ⟨W, d1, h1, h2, h3, h4, -⟩ := summary_weights (par := par) hc hd hb ex
  obtain ⟨W', d2, g1, g2, g3, g4, -⟩ := summary_weights (par := par') hc' hd' (usableRadius_scale hs hdist ha hbw hb) ex
  cases kernelWeight_unique g3 (kernelWeight_scale hs hdist hk ha hbw h3)
  unfold gwssAverageRun gwssCorrelationRun
  simp only [h1, h2, g1, g2, Res.bind]
  exact ⟨trivial, trivial⟩

/-! ## Principal components -/

/-- What is assumed of Armadillo's singular value decomposition. -/
def ExactSVD (svd : Matrix (Fin (n + 1)) (Fin p) ℝ → SvdOut p) : Prop := ∀ A, IsRightSVD A (svd A).d (svd A).V

theorem exactSVD_exists : ∃ svd : Matrix (Fin (n + 1)) (Fin p) ℝ → SvdOut p, ExactSVD svd := by
  choose d V h using fun A : Matrix (Fin (n + 1)) (Fin p) ℝ => Lemmas.exists_rightSVD A
  exact ⟨fun A => ⟨d A, V A⟩, h⟩

theorem svd_total {svd : Matrix (Fin (n + 1)) (Fin p) ℝ → SvdOut p} (hsvd : ExactSVD svd) (x : Matrix (Fin (n + 1)) (Fin p) ℝ) {w : Fin (n + 1) → ℝ}
    (hw : ∀ l, 0 ≤ w l) (h1 : ∑ l, w l ≠ 0) :
    ∑ j, (svd (centred x w)).d j ^ 2 = (∑ l, w l) * ∑ c, wvar (shareOf w) (fun l => x l c) := by
  have hi := hsvd (centred x w)
  have hc : ∀ c, (∑ l, w l) * wvar (shareOf w) (fun l => x l c) = ∑ j, (svd (centred x w)).d j ^ 2 * (svd (centred x w)).V c j ^ 2 := by
    intro c
    have e := (svd_expand hi (Pi.single c 1)).1
    rw [centred_form x w hw h1] at e
    have es : score x (Pi.single c 1) = fun l => x l c := by
      funext l; simp [score, Pi.single_apply]
    rw [es] at e
    rw [e]
    refine Finset.sum_congr rfl fun j _ => ?_
    congr 2
    simp [Pi.single_apply]
  rw [Finset.mul_sum]
  simp only [hc]
  rw [Finset.sum_comm]
  refine Finset.sum_congr rfl fun j _ => ?_
  rw [← Finset.mul_sum]
  have : ∑ c, (svd (centred x w)).V c j ^ 2 = 1 := by
    have := congrFun (congrFun hi.orth j) j
    rw [one_apply_eq] at this
    rw [← this]
    simp only [mul_apply, transpose_apply]
    exact Finset.sum_congr rfl fun c _ => by rw [sq]
  rw [this, mul_one]

theorem pca_weights {geo : Bool} {par : Option (DynMat × DynMat)} {coords : DynMat} {b : BandwidthWeight} {dist : Fin (n + 1) → Fin (n + 1) → ℝ}
    (hc : FitsData coords (n + 1)) (hd : IsMapDistance geo coords coords dist) (hb : UsableRadius b dist) {W : Fin (n + 1) → Fin (n + 1) → ℝ}
    (hW : IsKernelWeight b dist W) {K : ℕ} (svd : Matrix (Fin (n + 1)) (Fin p) ℝ → SvdOut p) (x : Matrix (Fin (n + 1)) (Fin p) ℝ) :
    gwpcaRun svd ⟨geo, par⟩ b coords x K = gwpca svd x W K ∧ ∀ i, Usable (W i) := by
  obtain ⟨W', d', h1, -, h3, h4, h5⟩ := summary_weights (par := par) hc hd hb .serial
  cases kernelWeight_unique hW h3
  refine ⟨?_, h4⟩
  unfold gwpcaRun
  simp only [h1, h5, Res.bind]

/-- **C117.** A run with at least as many observations as variables, keeping at least one and at most all components, succeeds exactly if at every
location some variable varies among the observations with weight there (otherwise the results are not numbers). It then reports at every location the
first principal components of the data, weighted by the kernel of the distances between the coordinates, with their percentages of the total variance,
which add up to 100 if all components are kept; and the winner is a variable with the largest loading on the first. -/
theorem C117_run {svd : Matrix (Fin (n + 1)) (Fin p) ℝ → SvdOut p} (hsvd : ExactSVD svd) {geo : Bool} {par : Option (DynMat × DynMat)}
    {coords : DynMat} {b : BandwidthWeight} {dist : Fin (n + 1) → Fin (n + 1) → ℝ} (hc : FitsData coords (n + 1))
    (hd : IsMapDistance geo coords coords dist) (hb : UsableRadius b dist) {W : Fin (n + 1) → Fin (n + 1) → ℝ} (hW : IsKernelWeight b dist W)
    (x : Matrix (Fin (n + 1)) (Fin p) ℝ) {K : ℕ} (hp : p ≤ n + 1) (hK0 : 0 < K) (hK : K ≤ p) :
    ((∀ i, ∃ c l l', 0 < W i l ∧ 0 < W i l' ∧ x l c ≠ x l' c) → ∃ o, gwpcaRun svd ⟨geo, par⟩ b coords x K = .ok o ∧
      ∀ i, IsPrincipal (shareOf (W i)) x (fun j => o.loadings j i) (o.pv i) ∧ (K = p → ∑ j, o.pv i j = 100) ∧
        ∀ c, o.loadings ⟨0, hK0⟩ i c ≤ o.loadings ⟨0, hK0⟩ i (o.winner i)) ∧
    ((∃ i, ∀ c l l', 0 < W i l → 0 < W i l' → x l c = x l' c) → gwpcaRun svd ⟨geo, par⟩ b coords x K = .nonfinite) := by
  obtain ⟨e, hu⟩ := pca_weights (par := par) hc hd hb hW (K := K) svd x
  have hv : ∀ i c, 0 ≤ wvar (shareOf (W i)) fun l => x l c := fun i c =>
    Finset.sum_nonneg fun l _ => mul_nonneg (div_nonneg ((hu i).1 l) (hu i).sum_pos.le) (sq_nonneg _)
  have hvz : ∀ i c, (wvar (shareOf (W i)) fun l => x l c) = 0 ↔ ∀ l l', 0 < W i l → 0 < W i l' → x l c = x l' c := by
    intro i c
    have hs := (hu i).sum_pos
    unfold wvar
    have hsh : ∀ l, 0 ≤ shareOf (W i) l := fun l => div_nonneg ((hu i).1 l) hs.le
    rw [Finset.sum_eq_zero_iff_of_nonneg fun l _ => mul_nonneg (hsh l) (sq_nonneg _)]
    constructor
    · intro h l l' hl hl'
      have key : ∀ l, 0 < W i l → x l c = wmean (shareOf (W i)) fun l => x l c := fun l hl => by
        rcases mul_eq_zero.1 (h l (Finset.mem_univ _)) with h' | h'
        · exact absurd h' (div_pos hl hs).ne'
        · exact sub_eq_zero.1 (by simpa using h')
      rw [key l hl, key l' hl']
    · intro h l _
      rcases ((hu i).1 l).eq_or_lt with h0 | h0
      · simp [shareOf, ← h0]
      · have : (wmean (shareOf (W i)) fun l => x l c) = x l c := by
          unfold wmean
          calc ∑ m, shareOf (W i) m * x m c = ∑ m, shareOf (W i) m * x l c := by
                refine Finset.sum_congr rfl fun m _ => ?_
                rcases ((hu i).1 m).eq_or_lt with hm | hm
                · simp [shareOf, ← hm]
                · rw [h m l hm h0]
            _ = x l c := by rw [← Finset.sum_mul, shareOf_sum (hu i), one_mul]
        rw [this]; simp
  have htot : ∀ i, ∑ j, pcaVariance svd x W i j = (∑ l, W i l) * (∑ c, wvar (shareOf (W i)) fun l => x l c) / ∑ l, W (Fin.last n) l := by
    intro i
    rw [← svd_total hsvd x (hu i).1 (hu i).sum_pos.ne', Finset.sum_div]
    exact Finset.sum_congr rfl fun j _ => pcaVariance_eq svd x W (hu _).1 i j
  have hzero : ∀ i, ∑ j, pcaVariance svd x W i j = 0 ↔ ∀ c l l', 0 < W i l → 0 < W i l' → x l c = x l' c := by
    intro i
    rw [htot, div_eq_zero_iff, or_iff_left (hu _).sum_pos.ne', mul_eq_zero, or_iff_right (hu i).sum_pos.ne',
      Finset.sum_eq_zero_iff_of_nonneg fun c _ => hv i c]
    exact ⟨fun h c => (hvz i c).1 (h c (Finset.mem_univ _)), fun h c _ => (hvz i c).2 (h c)⟩
  rw [e]
  constructor
  · intro hvar
    have hok : ∃ o, gwpca svd x W K = .ok o := by
      unfold gwpca
      rw [if_neg (by omega), dif_pos ⟨hK0, hK⟩, if_neg]
      · exact ⟨_, rfl⟩
      · rintro (⟨i, hi⟩ | ⟨i, hi⟩)
        · exact (hu i).sum_pos.ne' hi
        · obtain ⟨c, l, l', h1, h2, h3⟩ := hvar i
          exact h3 ((hzero i).1 hi c l l' h1 h2)
    obtain ⟨o, ho⟩ := hok
    have hsv : ∀ i, IsRightSVD (centred x (W i)) (svd (centred x (W i))).d (svd (centred x (W i))).V := fun i => hsvd _
    refine ⟨o, ho, fun i => ?_⟩
    obtain ⟨c1, c2, -, c4⟩ := C53_percentages svd x W (fun i => (hu i).1) hsv o ho i
    obtain ⟨b1, -, b3⟩ := C62_percentages_are_local_variances svd x W (fun i => (hu i).1) hsv o ho i
    exact ⟨⟨b1, fun j u h1 h2 => C62_components_maximise_variance svd x W (fun i => (hu i).1) hsv o ho i j u h1 h2, b3, c1, fun j j' h => c2 h⟩, c4,
      fun c => C63_winner_has_largest_loading svd x W o ho hK0 i c⟩
  · rintro ⟨i, hi⟩
    unfold gwpca
    rw [if_neg (by omega), dif_pos ⟨hK0, hK⟩, if_pos (Or.inr ⟨i, (hzero i).2 hi⟩)]

/-- **C117 (the map and the origin).** The results do not change if the map is moved or turned or otherwise changed without changing the distances, or if
all distances are multiplied by the same number and a fixed bandwidth with them; nor if every variable is measured from another origin. -/
theorem C117_invariance {svd : Matrix (Fin (n + 1)) (Fin p) ℝ → SvdOut p} {geo geo' : Bool} {par par' : Option (DynMat × DynMat)}
    {coords coords' : DynMat} {b b' : BandwidthWeight} {dist dist' : Fin (n + 1) → Fin (n + 1) → ℝ} (hc : FitsData coords (n + 1))
    (hc' : FitsData coords' (n + 1)) (hd : IsMapDistance geo coords coords dist) (hd' : IsMapDistance geo' coords' coords' dist')
    (hb : UsableRadius b dist) {s : ℝ} (hs : 0 < s) (hdist : ∀ i l, dist' i l = s * dist i l) (hk : b'.mKernel = b.mKernel)
    (ha : b'.mAdaptive = b.mAdaptive) (hbw : b'.mBandwidth = if b.mAdaptive = true then b.mBandwidth else s * b.mBandwidth)
    {x x' : Matrix (Fin (n + 1)) (Fin p) ℝ} {c : Fin p → ℝ} (hx : ∀ l j, x' l j = x l j + c j) (K : ℕ) :
    gwpcaRun svd ⟨geo', par'⟩ b' coords' x' K = gwpcaRun svd ⟨geo, par⟩ b coords x K := by
  obtain ⟨W, -, -, -, h3, h4, -⟩ := summary_weights (par := par) hc hd hb .serial
  rw [(pca_weights (par := par) hc hd hb h3 svd x).1,
    (pca_weights (par := par') hc' hd' (usableRadius_scale hs hdist ha hbw hb) (kernelWeight_scale hs hdist hk ha hbw h3) svd x').1]
  have hcen : ∀ i, centred x' (W i) = centred x (W i) := by
    intro i
    ext l j
    have hm : pcaMean x' (W i) j = pcaMean x (W i) j + c j := by
      unfold pcaMean
      have hs := (h4 i).sum_pos.ne'
      rw [div_add' _ _ _ hs, Finset.mul_sum, ← Finset.sum_add_distrib]
      congr 1
      exact Finset.sum_congr rfl fun l _ => by rw [hx]; ring
    simp only [centred, of_apply, hm, hx]
    ring
  unfold gwpca pcaVariance
  simp only [hcen]

theorem line_mapDistance (D : ℝ) : IsMapDistance (m := 3) (n := 3) false (lineCoords D) (lineCoords D) fun i j => |D| * |((j : ℕ) : ℝ) - (i : ℕ)| := by
  rw [mapDistance_calc]
  intro i j
  simp only [crsCalc, Bool.false_eq_true, if_false]
  rw [line_dist]

/-- The data 0, 1, 2. -/
def lineX : Matrix (Fin 3) (Fin 1) ℝ := Matrix.of fun l _ => (l : ℕ)

/-- Boxcar weights of bandwidth 3/2 of three points 1 apart. -/
noncomputable def lineW : Fin 3 → Fin 3 → ℝ := fun i l => if i.val + 2 = l.val ∨ l.val + 2 = i.val then 0 else 1

theorem lineW_kernel : IsKernelWeight ⟨3 / 2, false, .Boxcar⟩ (fun i j : Fin 3 => |(1 : ℝ)| * |((j : ℕ) : ℝ) - (i : ℕ)|) lineW := by
  intro i
  refine ⟨3 / 2, by simp [IsRadius], fun l => ?_⟩
  fin_cases i <;> fin_cases l <;> norm_num [lineW, kernelFormula, abs_of_nonneg, abs_of_nonpos]

/-- **C117, refuted for the standard deviations.** Three points 1 apart with values 0, 1, 2 and a box kernel that reaches the direct neighbours: whatever
singular value decomposition is used, the locally weighted variance of the first component's scores is 2/3 at the middle point, but the square of the
reported standard deviation is 1. -/
theorem C117_sdev_wrong {svd : Matrix (Fin 3) (Fin 1) ℝ → SvdOut 1} (hsvd : ExactSVD svd) (par : Option (DynMat × DynMat)) :
    ∃ o : PcaOut 2 1 1, gwpcaRun svd ⟨false, par⟩ ⟨3 / 2, false, .Boxcar⟩ (lineCoords 1) lineX 1 = .ok o ∧
      wvar (shareOf (lineW 1)) (score lineX (o.loadings 0 1)) = 2 / 3 ∧ o.sdev 1 0 ^ 2 = 1 := by
  have hb : UsableRadius (m := 3) (n := 3) ⟨3 / 2, false, .Boxcar⟩ fun i j => |(1 : ℝ)| * |((j : ℕ) : ℝ) - (i : ℕ)| :=
    usable_fixed (by norm_num) _ _
  have hc : FitsData (lineCoords 1) 3 := ⟨rfl, rfl⟩
  obtain ⟨o, ho, hp⟩ := (C117_run (par := par) hsvd hc (line_mapDistance 1) hb lineW_kernel lineX (le_refl 1 |>.trans (by norm_num)) one_pos le_rfl).1 (by
    intro i
    fin_cases i
    · exact ⟨0, 0, 1, by norm_num [lineW], by norm_num [lineW], by norm_num [lineX]⟩
    · exact ⟨0, 0, 1, by norm_num [lineW], by norm_num [lineW], by norm_num [lineX]⟩
    · exact ⟨0, 1, 2, by norm_num [lineW], by norm_num [lineW], by norm_num [lineX]⟩)
  have hl : o.loadings 0 1 0 * o.loadings 0 1 0 = 1 := by simpa using (hp 1).1.orthonormal 0 0
  have hv : wvar (shareOf (lineW 1)) (score lineX (o.loadings 0 1)) = 2 / 3 := by
    have : wvar (shareOf (lineW 1)) (score lineX (o.loadings 0 1)) = 2 / 3 * (o.loadings 0 1 0 * o.loadings 0 1 0) := by
      simp [wvar, wmean, shareOf, score, lineX, lineW, Fin.sum_univ_three]
      ring
    rw [this, hl]; norm_num
  refine ⟨o, ho, hv, ?_⟩
  obtain ⟨e, hu⟩ := pca_weights (par := par) hc (line_mapDistance 1) hb lineW_kernel (K := 1) svd lineX
  rw [e] at ho
  have := C62_sdev_partial svd lineX lineW (fun i => (hu i).1) (fun i => hsvd _) o ho 1 0 0 rfl
  rw [hv] at this
  have e1 : ∑ l, lineW (Fin.last 2) l = 2 := by rw [Fin.sum_univ_three]; simp [lineW]; norm_num
  have e2 : ∑ l, lineW 1 l = 3 := by norm_num [lineW, Fin.sum_univ_three]
  rw [e1, e2] at this
  linarith

/-- The hypotheses of C115 are met by a fixed Gaussian kernel and by an adaptive one with the two nearest neighbours, on three points 1 apart. -/
example : FitsData (lineCoords 1) 3 ∧ IsMapDistance (m := 3) (n := 3) false (lineCoords 1) (lineCoords 1) (fun i j => |(1 : ℝ)| * |((j : ℕ) : ℝ) - (i : ℕ)|) ∧
    UsableRadius (m := 3) (n := 3) ⟨1, false, .Gaussian⟩ (fun i j => |(1 : ℝ)| * |((j : ℕ) : ℝ) - (i : ℕ)|) ∧
    UsableRadius (m := 3) (n := 3) ⟨2, true, .Bisquare⟩ (fun i j => |(1 : ℝ)| * |((j : ℕ) : ℝ) - (i : ℕ)|) := by
  refine ⟨⟨rfl, rfl⟩, line_mapDistance 1, usable_fixed one_pos _ _, usable_distinct le_rfl (by norm_num) (by norm_num) fun i l hne => ?_⟩
  have : ((l : ℕ) : ℝ) - (i : ℕ) ≠ 0 := sub_ne_zero.2 fun h => hne (Fin.ext (by exact_mod_cast h.symm))
  simpa using this

end Verif.Props

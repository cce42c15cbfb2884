import Verif.Model.GWDARun
import Verif.Props.GWDA
import Verif.Props.GWRDefinition

/-! Scores, quadratic rule and whole runs of discriminant analysis (C105, C106). -/

namespace Verif.Props
open Verif Verif.Model Verif.Spec Matrix

variable {n k m : ℕ} {α : Type} [DecidableEq α]

theorem score_ok {e : GwdaEnv k} {m : ℕ} {z mean : Fin k → ℝ} {cov : Matrix (Fin k) (Fin k) ℝ} {pr v : ℝ} (hdet : cov.det ≠ 0)
    (h : gwdaScore e m z mean cov pr = .ok v) :
    0 < e.nrm cov ∧ 0 < pr ∧ v = ((m / 2 : ℕ) : ℝ) * Real.log (e.nrm cov) + ldaCost z mean cov pr := by
  unfold gwdaScore at h
  rw [Res.bind_eq_ok'] at h
  obtain ⟨s, hs, h⟩ := h
  rw [Res.bind_eq_ok'] at h
  obtain ⟨ln, hln, h⟩ := h
  rw [Res.bind_eq_ok'] at h
  obtain ⟨lp, hlp, h⟩ := h
  rw [gwdaSolve, if_pos hdet] at hs
  unfold flog at hln hlp
  split_ifs at hln with h1
  split_ifs at hlp with h2
  simp only [Res.ok.injEq] at hs hln hlp h
  refine ⟨not_le.1 h1, not_le.1 h2, ?_⟩
  rw [← h, ← hln, ← hlp, ← hs, ldaCost]
  ring

theorem used_eq (st : GwdaState) (W : Fin n → Fin n → ℝ) (j l : Fin n) :
    (if st.parallel then gwdaWtOmp W else gwdaWtSerial st.prSet W) l j = usedWeight st W j l := by
  unfold usedWeight gwdaWtOmp gwdaWtSerial
  cases st.parallel <;> cases st.prSet <;> simp

theorem levels_card (y : Fin n → α) : (gwdaLevels (List.ofFn y)).length = (Finset.univ.image y).card := by
  rw [← levels_toFinset, List.toFinset_card_of_nodup (C45_levels _).1]

/-- C105 (linear scores): the published score of every location and class is half the squared Mahalanobis distance to the local mean of the class, in the
pooled local covariance, minus the logarithm of the weight of the class as a share of the weights of all locations, plus the logarithm of the norm of
the pooled covariance as often as half the number of classes, rounded down, says. -/
theorem C105_linear_scores (e : GwdaEnv k) (st st' : GwdaState) (hst : st.isWqda = false) (x : Matrix (Fin n) (Fin k) ℝ) (y : Fin n → α)
    (W : Fin n → Fin n → ℝ) (rows : Fin n → Fin (gwdaLevels (List.ofFn y)).length → ℝ)
    (hrun : gwdaRun e st x y W = .ok (st', rows)) (j : Fin n)
    (hdet : (pooled x y (fun l => if e.hasCov then usedWeight st W j l else 1)).det ≠ 0)
    (i : Fin (gwdaLevels (List.ofFn y)).length) :
    rows j i = (((Finset.univ.image y).card / 2 : ℕ) : ℝ) *
        Real.log (e.nrm (pooled x y (fun l => if e.hasCov then usedWeight st W j l else 1))) +
      ldaCost (x j) (classMean x y (fun l => if e.hasMean then usedWeight st W j l else 1) ((gwdaLevels (List.ofFn y)).get i))
        (pooled x y (fun l => if e.hasCov then usedWeight st W j l else 1))
        (classTotal y (fun l => if e.hasPrior then usedWeight st W j l else 1) ((gwdaLevels (List.ofFn y)).get i) /
          ∑ j', ∑ l, if e.hasPrior then usedWeight st W j' l else 1) := by
  unfold gwdaRun at hrun
  by_cases hk : k < 2
  · rw [if_pos hk] at hrun; cases hrun
  rw [if_neg hk] at hrun
  simp only [hst] at hrun
  rw [Res.bind_eq_ok'] at hrun
  obtain ⟨rows', hrows, hrun⟩ := hrun
  simp only [Res.ok.injEq, Prod.mk.injEq] at hrun
  obtain ⟨-, rfl⟩ := hrun
  rw [Res.tabulate_eq_ok] at hrows
  have hrow := hrows j
  simp only [Bool.false_eq_true, if_false] at hrow
  unfold wldaRow at hrow
  rw [Res.bind_eq_ok'] at hrow
  obtain ⟨cov, hcov, hrow⟩ := hrow
  rw [Res.tabulate_eq_ok] at hrow
  have hcov' := pooledCov_spec e x y _ j cov hcov
  simp only [used_eq] at hcov'
  have h := hrow i
  rw [Res.bind_eq_ok'] at h
  obtain ⟨mean, hmean, h⟩ := h
  rw [Res.bind_eq_ok'] at h
  obtain ⟨pr, hpr, h⟩ := h
  obtain ⟨-, -, hv⟩ := score_ok (by rw [hcov']; exact hdet) h
  have hg : ∀ (b : Bool) (j l : Fin n), (if b = true then (if st.parallel then gwdaWtOmp W else gwdaWtSerial st.prSet W) else wtOnes n) l j =
      if b = true then usedWeight st W j l else 1 := by
    intro b j l
    cases b
    · rfl
    · simp only [if_true, used_eq]
  have hmean' := wMean_spec x y _ _ j mean hmean
  simp only [hg] at hmean'
  rw [wPrior, fdiv] at hpr
  by_cases h3 : accu (if e.hasPrior = true then (if st.parallel = true then gwdaWtOmp W else gwdaWtSerial st.prSet W) else wtOnes n) = 0
  · rw [if_pos h3] at hpr; cases hpr
  rw [if_neg h3, Res.ok.injEq] at hpr
  rw [classWeight_eq] at hpr
  simp only [accu, hg] at hpr
  rw [hv, hcov', hmean', ← hpr, levels_card]

/-- C105 (quadratic scores): the same for the quadratic rule, with the local covariance of the class. -/
theorem C105_quadratic_scores (e : GwdaEnv k) (st st' : GwdaState) (hst : st.isWqda = true) (x : Matrix (Fin n) (Fin k) ℝ) (y : Fin n → α)
    (W : Fin n → Fin n → ℝ) (rows : Fin n → Fin (gwdaLevels (List.ofFn y)).length → ℝ)
    (hrun : gwdaRun e st x y W = .ok (st', rows)) (j : Fin n) (i : Fin (gwdaLevels (List.ofFn y)).length)
    (hdet : (classCov x y (usedWeight st W j) ((gwdaLevels (List.ofFn y)).get i)).det ≠ 0) :
    0 < classTotal y (usedWeight st W j) ((gwdaLevels (List.ofFn y)).get i) / ∑ j', ∑ l, usedWeight st W j' l ∧
    rows j i = (((Finset.univ.image y).card / 2 : ℕ) : ℝ) *
        Real.log (e.nrm (classCov x y (usedWeight st W j) ((gwdaLevels (List.ofFn y)).get i))) +
      ldaCost (x j) (classMean x y (usedWeight st W j) ((gwdaLevels (List.ofFn y)).get i))
        (classCov x y (usedWeight st W j) ((gwdaLevels (List.ofFn y)).get i))
        (classTotal y (usedWeight st W j) ((gwdaLevels (List.ofFn y)).get i) / ∑ j', ∑ l, usedWeight st W j' l) := by
  unfold gwdaRun at hrun
  by_cases hk : k < 2
  · rw [if_pos hk] at hrun; cases hrun
  rw [if_neg hk] at hrun
  simp only [hst, if_true] at hrun
  rw [Res.bind_eq_ok'] at hrun
  obtain ⟨rows', hrows, hrun⟩ := hrun
  simp only [Res.ok.injEq, Prod.mk.injEq] at hrun
  obtain ⟨-, rfl⟩ := hrun
  rw [Res.tabulate_eq_ok] at hrows
  have hrow := hrows j
  unfold wqdaRow at hrow
  by_cases hc : e.hasMean = false ∨ e.hasCov = false ∨ e.hasPrior = false
  · rw [if_pos hc] at hrow; cases hrow
  rw [if_neg hc, Res.tabulate_eq_ok] at hrow
  have h := hrow i
  rw [Res.bind_eq_ok'] at h
  obtain ⟨mean, hmean, h⟩ := h
  rw [Res.bind_eq_ok'] at h
  obtain ⟨cov, hcov, h⟩ := h
  rw [Res.bind_eq_ok'] at h
  obtain ⟨pr, hpr, h⟩ := h
  have hcov' := wVarCov_spec x y _ _ j cov hcov
  have hmean' := wMean_spec x y _ _ j mean hmean
  simp only [used_eq] at hcov' hmean'
  obtain ⟨-, hp, hv⟩ := score_ok (by rw [hcov']; exact hdet) h
  rw [wPrior, fdiv] at hpr
  by_cases h3 : accu (if st.parallel = true then gwdaWtOmp W else gwdaWtSerial st.prSet W) = 0
  · rw [if_pos h3] at hpr; cases hpr
  rw [if_neg h3, Res.ok.injEq] at hpr
  rw [classWeight_eq] at hpr
  simp only [accu, used_eq] at hpr
  rw [← hpr] at hp
  refine ⟨hp, ?_⟩
  rw [hv, hcov', hmean', ← hpr, levels_card]

/-- C105 (what holds): the quadratic rule names a class that minimises half the squared Mahalanobis distance to the local mean, in the local covariance of
the class, minus the logarithm of the local prior — plus a multiple of the logarithm of the norm of the covariance, where the rule has half the logarithm of
its determinant. The multiple is half the number of classes, rounded down. -/
theorem C105_quadratic_rule_partial (e : GwdaEnv k) (st st' : GwdaState) (hst : st.isWqda = true) (x : Matrix (Fin n) (Fin k) ℝ) (y : Fin n → α)
    (W : Fin n → Fin n → ℝ) (hW : ∀ j l, 0 ≤ W j l) (rows : Fin n → Fin (gwdaLevels (List.ofFn y)).length → ℝ)
    (hrun : gwdaRun e st x y W = .ok (st', rows)) (j : Fin n) (s : α) (hs : gwdaGroup _ (rows j) = .ok s)
    (hdet : ∀ l, (classCov x y (usedWeight st W j) (y l)).det ≠ 0) :
    let cost := fun c => (((Finset.univ.image y).card / 2 : ℕ) : ℝ) * Real.log (e.nrm (classCov x y (usedWeight st W j) c)) +
      ldaCost (x j) (classMean x y (usedWeight st W j) c) (classCov x y (usedWeight st W j) c) (classPrior y (usedWeight st W j) c)
    (∃ l, y l = s) ∧ ∀ l, cost s ≤ cost (y l) := by
  intro cost
  obtain ⟨i, hi, hmin, l0, hl0⟩ := C45_group y (rows j) j.pos
  have hsi : s = (gwdaLevels (List.ofFn y)).get i := by
    have := hs.symm.trans hi
    simpa using this
  have hu : ∀ j l, 0 ≤ usedWeight st W j l := by
    intro j l; unfold usedWeight; split_ifs
    · exact le_rfl
    · exact hW j l
  have hsc : ∀ i, rows j i = cost ((gwdaLevels (List.ofFn y)).get i) +
      (Real.log (∑ j', ∑ l, usedWeight st W j' l) - Real.log (∑ l, usedWeight st W j l)) := by
    intro i
    have hm : (gwdaLevels (List.ofFn y)).get i ∈ List.ofFn y := ((C45_levels _).2.1 _).1 (List.get_mem _ _)
    obtain ⟨l, hl⟩ : ∃ l, y l = (gwdaLevels (List.ofFn y)).get i := by simpa [List.mem_ofFn'] using hm
    obtain ⟨hp, h⟩ := C105_quadratic_scores e st st' hst x y W rows hrun j i (by rw [← hl]; exact hdet l)
    have hacc0 : 0 ≤ ∑ j', ∑ l, usedWeight st W j' l := Finset.sum_nonneg fun j _ => Finset.sum_nonneg fun l _ => hu j l
    have hct0 : 0 ≤ classTotal y (usedWeight st W j) ((gwdaLevels (List.ofFn y)).get i) := Finset.sum_nonneg fun l _ => hu j l
    have hacc : 0 < ∑ j', ∑ l, usedWeight st W j' l := lt_of_le_of_ne hacc0 fun h0 => by rw [← h0, div_zero] at hp; exact lt_irrefl _ hp
    have hct : 0 < classTotal y (usedWeight st W j) ((gwdaLevels (List.ofFn y)).get i) :=
      lt_of_le_of_ne hct0 fun h0 => by rw [← h0, zero_div] at hp; exact lt_irrefl _ hp
    have htot : 0 < ∑ l, usedWeight st W j l :=
      hct.trans_le (Finset.sum_le_sum_of_subset_of_nonneg (Finset.filter_subset _ _) fun l _ _ => hu j l)
    rw [h]
    simp only [cost, ldaCost, classPrior]
    rw [Real.log_div hct.ne' hacc.ne', Real.log_div hct.ne' htot.ne']
    ring
  refine ⟨⟨l0, hl0.trans hsi.symm⟩, fun l => ?_⟩
  obtain ⟨i', hi'⟩ := List.get_of_mem (((C45_levels (List.ofFn y)).2.1 (y l)).2 (by simp))
  have := hmin i'
  rw [hsc i, hsc i', hi', ← hsi] at this
  linarith

/-! ## A data set on which the quadratic rule names the wrong class -/

/-- Four observations of class `false` on a circle, five of class `true` close to a line, the last at the centre. -/
noncomputable def qaX : Matrix (Fin 9) (Fin 2) ℝ := !![1, 0; -1, 0; 0, 1; 0, -1; 2, 0; -2, 0; 0, 1 / 10; 0, -(1 / 10); 0, 0]

def qaY : Fin 9 → Bool := ![false, false, false, false, true, true, true, true, true]

theorem qa_false : findSame qaY false = [0, 1, 2, 3] := by decide

theorem qa_true : findSame qaY true = [4, 5, 6, 7, 8] := by decide

theorem qa_levels : gwdaLevels (List.ofFn qaY) = [false, true] := by
  simp [gwdaLevels, qaY, List.ofFn_succ]

/-- Covariance matrices of the two classes. -/
noncomputable def qaCov : Bool → Matrix (Fin 2) (Fin 2) ℝ
  | false => !![2 / 3, 0; 0, 2 / 3]
  | true => !![2, 0; 0, 1 / 200]

theorem qa_val : qaX 0 0 = 1 ∧ qaX 0 1 = 0 ∧ qaX 1 0 = -1 ∧ qaX 1 1 = 0 ∧ qaX 2 0 = 0 ∧ qaX 2 1 = 1 ∧ qaX 3 0 = 0 ∧ qaX 3 1 = -1 ∧ qaX 4 0 = 2 ∧ qaX 4 1 = 0 ∧ qaX 5 0 = -2 ∧ qaX 5 1 = 0 ∧ qaX 6 0 = 0 ∧ qaX 6 1 = 1 / 10 ∧ qaX 7 0 = 0 ∧ qaX 7 1 = -(1 / 10) ∧ qaX 8 0 = 0 ∧ qaX 8 1 = 0 := by
  refine ⟨rfl, rfl, rfl, rfl, rfl, rfl, rfl, rfl, rfl, rfl, rfl, rfl, rfl, rfl, rfl, rfl, rfl, rfl⟩

theorem qa_mean (s : Bool) (j : Fin 9) : wMean qaX (fun _ _ => 1) (findSame qaY s) j = .ok 0 := by
  cases s
  · rw [qa_false, wMean, if_neg (by norm_num [classWeight])]
    congr 1
    funext c
    revert c
    rw [Fin.forall_fin_two]
    constructor <;> norm_num [classWeight, qa_val]
  · rw [qa_true, wMean, if_neg (by norm_num [classWeight])]
    congr 1
    funext c
    revert c
    rw [Fin.forall_fin_two]
    constructor <;> norm_num [classWeight, qa_val]

theorem qa_cov (s : Bool) (j : Fin 9) : wVarCov qaX (fun _ _ => 1) (findSame qaY s) j = .ok (qaCov s) := by
  cases s
  · rw [qa_false, wVarCov, if_neg (by norm_num [classWeight]), covwtmat]
    norm_num [classWeight]
    ext u v
    revert u v
    simp only [Fin.forall_fin_two]
    norm_num [qa_val, qaCov]
  · rw [qa_true, wVarCov, if_neg (by norm_num [classWeight]), covwtmat]
    norm_num [classWeight]
    ext u v
    revert u v
    simp only [Fin.forall_fin_two]
    norm_num [qa_val, qaCov]

theorem largest_diag {a b s : ℝ} (hb : 0 ≤ b) (hab : b ≤ a) (h : IsLargestSV !![a, 0; 0, b] s) : s = a := by
  obtain ⟨h0, h1, v, hv, h2⟩ := h
  have e1 := h1 ![1, 0]
  simp [Fin.sum_univ_two] at e1 h2
  have hpos : 0 < v 0 ^ 2 + v 1 ^ 2 := by
    by_contra hcon
    apply hv
    funext i
    fin_cases i
    · simp; nlinarith [sq_nonneg (v 0), sq_nonneg (v 1)]
    · simp; nlinarith [sq_nonneg (v 0), sq_nonneg (v 1)]
  have ha : 0 ≤ a := hb.trans hab
  have h3 : s ^ 2 ≤ a ^ 2 := by
    by_contra hcon
    push Not at hcon
    have hbb : b ^ 2 ≤ a ^ 2 := by nlinarith
    nlinarith [mul_pos (sub_pos.2 hcon) hpos, mul_nonneg (sub_nonneg.2 hbb) (sq_nonneg (v 1))]
  exact le_antisymm ((le_abs_self s).trans (abs_le_of_sq_le_sq h3 ha)) ((le_abs_self a).trans (abs_le_of_sq_le_sq (by simpa using e1) h0))

/-- All options local. -/
def qaEnv (nrm : Matrix (Fin 2) (Fin 2) ℝ → ℝ) (sing : Matrix (Fin 2) (Fin 2) ℝ → (Fin 2 → ℝ) → Res (Fin 2 → ℝ)) : GwdaEnv 2 :=
  ⟨true, true, true, nrm, sing⟩

theorem qa_nrm {nrm : Matrix (Fin 2) (Fin 2) ℝ → ℝ} (hN : ∀ A, IsLargestSV A (nrm A)) :
    nrm (qaCov false) = 2 / 3 ∧ nrm (qaCov true) = 2 :=
  ⟨largest_diag (by norm_num) le_rfl (hN _), largest_diag (by norm_num) (by norm_num) (hN _)⟩

theorem qa_det : (qaCov false).det = 4 / 9 ∧ (qaCov true).det = 1 / 100 := by
  constructor <;> rw [qaCov, Matrix.det_fin_two_of] <;> norm_num

theorem qa_accu : accu (fun _ _ : Fin 9 => (1 : ℝ)) = 81 := by simp [accu]; norm_num

theorem qa_prior (s : Bool) (j : Fin 9) : wPrior (fun _ _ => 1) (findSame qaY s) 81 j = .ok (if s then 5 / 81 else 4 / 81) := by
  cases s
  · rw [qa_false]; norm_num [wPrior, classWeight, fdiv]
  · rw [qa_true]; norm_num [wPrior, classWeight, fdiv]

theorem qa_run (nrm sing) (hN : ∀ A, IsLargestSV A (nrm A)) :
    ∃ rows, gwdaRun (qaEnv nrm sing) ⟨true, true, false⟩ qaX qaY (fun _ _ => 1) = .ok (⟨true, true, true⟩, rows) := by
  have hone : ∀ (s : Bool) (j : Fin 9), ∃ v, ((wMean qaX (fun _ _ => 1) (findSame qaY s) j).bind fun mean =>
      (wVarCov qaX (fun _ _ => 1) (findSame qaY s) j).bind fun cov =>
      (wPrior (fun _ _ => 1) (findSame qaY s) (accu fun _ _ : Fin 9 => (1 : ℝ)) j).bind fun pr =>
      gwdaScore (qaEnv nrm sing) (gwdaLevels (List.ofFn qaY)).length (qaX j) mean cov pr) = .ok v := by
    intro s j
    rw [qa_mean, qa_cov, qa_accu, qa_prior]
    simp only [Res.bind, gwdaScore]
    have hd : (qaCov s).det ≠ 0 := by cases s <;> norm_num [qa_det]
    have hn : ¬ (qaEnv nrm sing).nrm (qaCov s) ≤ 0 := by
      change ¬ nrm (qaCov s) ≤ 0
      cases s <;> norm_num [qa_nrm hN]
    have hp : ¬ (if s = true then (5 / 81 : ℝ) else 4 / 81) ≤ 0 := by cases s <;> norm_num
    rw [gwdaSolve, if_pos hd, flog, if_neg hn, flog, if_neg hp]
    exact ⟨_, rfl⟩
  choose f hf using hone
  refine ⟨fun j i => f ((gwdaLevels (List.ofFn qaY)).get i) j, ?_⟩
  unfold gwdaRun
  rw [if_neg (by norm_num)]
  simp only [if_true]
  have : Res.tabulate 9 (fun j => wqdaRow (qaEnv nrm sing) qaX qaY (gwdaLevels (List.ofFn qaY)) (gwdaWtOmp fun _ _ => 1) j) =
      .ok fun j i => f ((gwdaLevels (List.ofFn qaY)).get i) j := by
    rw [Res.tabulate_eq_ok]
    intro j
    rw [wqdaRow, if_neg (by simp [qaEnv]), Res.tabulate_eq_ok]
    intro i
    exact hf _ j
  rw [this]
  rfl

/-- C105 fails: on this data set the quadratic rule prefers class `true` at the last observation, the centre of both classes, and the run names `false`. -/
theorem C105_quadratic_rule_fails (nrm sing) (hN : ∀ A, IsLargestSV A (nrm A)) :
    ∃ (x : Matrix (Fin 9) (Fin 2) ℝ) (y : Fin 9 → Bool) (W : Fin 9 → Fin 9 → ℝ) (e : GwdaEnv 2) (st st' : GwdaState), e.nrm = nrm ∧
      e.solveSingular = sing ∧ st.isWqda = true ∧ (∀ j l, 0 ≤ W j l) ∧ ∃ rows, gwdaRun e st x y W = .ok (st', rows) ∧
      ∃ j s, (∀ c, 0 < (classCov x y (usedWeight st W j) c).det) ∧ gwdaGroup _ (rows j) = .ok s ∧ ∃ l,
        qdaCost (x j) (classMean x y (usedWeight st W j) (y l)) (classCov x y (usedWeight st W j) (y l)) (classPrior y (usedWeight st W j) (y l)) <
        qdaCost (x j) (classMean x y (usedWeight st W j) s) (classCov x y (usedWeight st W j) s) (classPrior y (usedWeight st W j) s) := by
  obtain ⟨rows, hrun⟩ := qa_run nrm sing hN
  have hu : ∀ j, usedWeight ⟨true, true, false⟩ (fun _ _ : Fin 9 => (1 : ℝ)) j = fun _ => 1 := by
    intro j; funext l; simp [usedWeight]
  have hcov : ∀ s, classCov qaX qaY (fun _ => 1) s = qaCov s := fun s => (wVarCov_spec qaX qaY s (fun _ _ => 1) 8 _ (qa_cov s 8)).symm
  have hmean : ∀ s, classMean qaX qaY (fun _ => 1) s = 0 := fun s => (wMean_spec qaX qaY s (fun _ _ => 1) 8 _ (qa_mean s 8)).symm
  have hct : classTotal qaY (fun _ => (1 : ℝ)) false = 4 ∧ classTotal qaY (fun _ => (1 : ℝ)) true = 5 := by
    constructor
    · rw [← classWeight_eq qaY false (fun _ _ => 1) 0, qa_false]; norm_num [classWeight]
    · rw [← classWeight_eq qaY true (fun _ _ => 1) 0, qa_true]; norm_num [classWeight]
  have hx : qaX 8 = 0 := by
    funext c
    revert c
    rw [Fin.forall_fin_two]
    norm_num [qa_val]
  have hpr : classPrior qaY (fun _ => (1 : ℝ)) false = 4 / 9 ∧ classPrior qaY (fun _ => (1 : ℝ)) true = 5 / 9 := by
    constructor <;> rw [classPrior] <;> norm_num [hct]
  have hdet : ∀ c, 0 < (classCov qaX qaY (fun _ => 1) c).det := by
    intro c; rw [hcov]; cases c <;> norm_num [qa_det]
  obtain ⟨i, hi, -, -⟩ := C45_group qaY (rows 8) (by norm_num)
  have hl : ∀ (c : Bool) (a : ℝ), ldaCost (0 : Fin 2 → ℝ) 0 (qaCov c) a = -Real.log a := by
    intro c a; simp [ldaCost]
  obtain ⟨-, hp⟩ := C105_quadratic_rule_partial (qaEnv nrm sing) ⟨true, true, false⟩ _ rfl qaX qaY (fun _ _ => 1) (fun _ _ => zero_le_one) rows
    hrun 8 _ hi (fun l => by rw [hu]; exact (hdet _).ne')
  have hcard : (Finset.univ.image qaY).card = 2 := by decide
  have hs : (gwdaLevels (List.ofFn qaY)).get i = false := by
    by_contra hne
    have ht : (gwdaLevels (List.ofFn qaY)).get i = true := by simpa using hne
    have h := hp 0
    have h0 : qaY 0 = false := rfl
    simp only [ht, h0, hu, hcov, hmean, hx, hcard, hpr, hl] at h
    change ((1 : ℕ) : ℝ) * Real.log (nrm (qaCov true)) + _ ≤ ((1 : ℕ) : ℝ) * Real.log (nrm (qaCov false)) + _ at h
    rw [(qa_nrm hN).1, (qa_nrm hN).2, Real.log_div (by norm_num) (by norm_num), Real.log_div (by norm_num) (by norm_num),
      Real.log_div (by norm_num) (by norm_num)] at h
    have h1 : Real.log 5 < Real.log 3 + Real.log 4 := by
      rw [← Real.log_mul (by norm_num) (by norm_num)]
      exact Real.log_lt_log (by norm_num) (by norm_num)
    push_cast at h
    linarith
  refine ⟨qaX, qaY, fun _ _ => 1, qaEnv nrm sing, ⟨true, true, false⟩, _, rfl, rfl, rfl, fun _ _ => zero_le_one, rows, hrun, 8, false, ?_, ?_, 8, ?_⟩
  · intro c; rw [hu]; exact hdet c
  · rw [hi, hs]
  · have h8 : qaY 8 = true := rfl
    simp only [h8, hu, hcov, hmean, hx, hpr, qdaCost, qa_det, hl]
    rw [Real.log_div (by norm_num) (by norm_num), Real.log_div (by norm_num) (by norm_num), Real.log_div (by norm_num) (by norm_num),
      Real.log_one]
    have h1 : Real.log 9 < Real.log 100 := Real.log_lt_log (by norm_num) (by norm_num)
    have h2 : Real.log 4 < Real.log 5 := Real.log_lt_log (by norm_num) (by norm_num)
    have h3 : 0 < Real.log 4 := Real.log_pos (by norm_num)
    linarith

/-! ## Whole runs -/

theorem probs_eq {m : ℕ} {scores p : Fin m → ℝ} (h : gwdaProbs scores = .ok p) :
    ∃ t : Fin m → ℝ, (∀ i, t i = if i.val + 1 = m then scores i else Real.exp (scores i)) ∧ ∀ i, p i = t i / ∑ i', t i' := by
  unfold gwdaProbs at h
  simp only at h
  by_cases h0 : ∑ i : Fin m, (if i.val < m - 1 then Real.exp (scores i) else scores i) = 0
  · rw [if_pos h0] at h; cases h
  rw [if_neg h0] at h
  refine ⟨fun i => if i.val < m - 1 then Real.exp (scores i) else scores i, fun i => ?_, fun i => ?_⟩
  · have := i.isLt
    simp only
    by_cases hi : i.val + 1 = m
    · rw [if_pos hi, if_neg (by omega)]
    · rw [if_neg hi, if_pos (by omega)]
  · rw [← Res.ok.inj h]

theorem shannon_formula {m : ℕ} {p : Fin m → ℝ} {v : ℝ} (hp : ∀ i, 0 ≤ p i) (h1 : ∑ i, p i = 1) (h : shannonEntropy p = .ok v) :
    v = entropyBits p := by
  unfold shannonEntropy at h
  by_cases h0 : m = 0
  · rw [if_pos h0] at h; cases h
  rw [if_neg h0, if_neg (by rw [h1]; push Not; exact ⟨hp, one_pos⟩), Res.ok.injEq] at h
  rw [← h, entropyBits, h1, ← Finset.sum_neg_distrib]
  rw [Finset.sum_filter]
  refine Finset.sum_congr rfl fun i _ => ?_
  by_cases hi : 0 < p i
  · rw [if_pos hi, div_one, Real.logb, one_div, Real.log_inv]; ring
  · rw [if_neg hi, le_antisymm (not_lt.1 hi) (hp i)]; simp

/-- C45: the entropy function of a distribution is the Shannon entropy in bits. -/
theorem C45_entropy_formula {m : ℕ} (hm : m ≠ 0) (p : Fin m → ℝ) (hp : ∀ i, 0 ≤ p i) (h1 : ∑ i, p i = 1) :
    shannonEntropy p = .ok (entropyBits p) := by
  have : ∃ v, shannonEntropy p = .ok v := by
    unfold shannonEntropy
    rw [if_neg hm, if_neg (by rw [h1]; push Not; exact ⟨hp, one_pos⟩)]
    exact ⟨_, rfl⟩
  obtain ⟨v, hv⟩ := this
  rw [hv, shannon_formula hp h1 hv]

/-- What a run publishes besides the scores, in terms of the scores. -/
theorem publish_ok {y : Fin n → α} {rows : Fin n → Fin (gwdaLevels (List.ofFn y)).length → ℝ}
    {o : GwdaOutput α n (gwdaLevels (List.ofFn y)).length} (h : gwdaPublish y (gwdaLevels (List.ofFn y)) rows = .ok o) :
    2 ≤ (gwdaLevels (List.ofFn y)).length ∧ o.scores = rows ∧ (∀ j, gwdaGroup _ (rows j) = .ok (o.group j)) ∧
    correctRate y o.group = .ok o.correctRate ∧ (∀ j, o.probs j = gwdaProbs (rows j)) ∧
    (∀ j, o.pmax j = (gwdaProbs (rows j)).bind fun p => .ok (⨆ i, p i)) ∧
    ∀ j, o.entropy j = (gwdaProbs (rows j)).bind fun p => gwdaEntropy p := by
  unfold gwdaPublish at h
  rw [Res.bind_eq_ok'] at h
  obtain ⟨g, hg, h⟩ := h
  rw [Res.bind_eq_ok'] at h
  obtain ⟨cr, hcr, h⟩ := h
  by_cases h0 : (gwdaLevels (List.ofFn y)).length = 0
  · rw [if_pos h0] at h; cases h
  rw [if_neg h0, Res.bind_eq_ok'] at h
  obtain ⟨en, hen, h⟩ := h
  have ho := (Res.ok.inj h).symm
  subst ho
  rw [Res.tabulate_eq_ok] at hg
  refine ⟨?_, rfl, hg, hcr, fun _ => rfl, fun _ => rfl, fun j => ?_⟩
  · by_contra hlt
    have : (gwdaLevels (List.ofFn y)).length - 1 = 0 := by omega
    unfold shannonEntropy at hen
    rw [if_pos this] at hen
    cases hen
  · simp only [gwdaEntropy, hen, Res.bind]

theorem full_ok {e : GwdaEnv k} {st st' : GwdaState} {p : Option (DynMat × DynMat)} {b : BandwidthWeight} {coords : DynMat}
    {x : Matrix (Fin n) (Fin k) ℝ} {y : Fin n → α} {o} (h : gwdaFull e st ⟨false, p⟩ b coords x y = .ok (st', o)) :
    ∃ W, weightRows ⟨false, some (coords, coords)⟩ b n n = .ok W ∧ gwdaRun e st x y W = .ok (st', o.scores) ∧
      gwdaPublish y (gwdaLevels (List.ofFn y)) o.scores = .ok o := by
  unfold gwdaFull at h
  rw [Res.bind_eq_ok'] at h
  obtain ⟨d', hd, h⟩ := h
  by_cases hk : k < 2
  · rw [if_pos hk] at h; cases h
  rw [if_neg hk, Res.bind_eq_ok'] at h
  obtain ⟨W, hW, h⟩ := h
  rw [Res.bind_eq_ok'] at h
  obtain ⟨⟨s, rows⟩, hr, h⟩ := h
  rw [Res.bind_eq_ok'] at h
  obtain ⟨o', ho, h⟩ := h
  have he := Res.ok.inj h
  simp only [Prod.mk.injEq] at he
  obtain ⟨rfl, rfl⟩ := he
  obtain ⟨-, -, rfl⟩ := bindLocations_eq_ok.1 hd
  have hs := (publish_ok ho).2.1
  exact ⟨W, hW, by rw [hs]; exact hr, by rw [hs]; exact ho⟩

/-- C106 (classes): a run with planar coordinates and a fixed-bandwidth kernel names at every observation a class of the data that minimises the
linear discriminant cost, with means, pooled covariance and priors from the kernel weights of the distances between the coordinates (without the
observation itself in the first serial run), each replaced by its global counterpart if so chosen. -/
theorem C106_linear_run (e : GwdaEnv k) (st st' : GwdaState) (hst : st.isWqda = false) (p : Option (DynMat × DynMat)) (kernel : KernelType)
    (bw : ℝ) (hb : 0 < bw) (coords : DynMat) (x : Matrix (Fin n) (Fin k) ℝ) (y : Fin n → α) (o)
    (h : gwdaFull e st ⟨false, p⟩ ⟨bw, false, kernel⟩ coords x y = .ok (st', o)) (j : Fin n) :
    let K := fun l : Fin n => if st.parallel = false ∧ st.prSet = false ∧ l = j then 0 else
      kernelFormula kernel bw (plane (coords.val j) (coords.val l))
    let C := pooled x y (fun l => if e.hasCov then K l else 1)
    let cost := fun c => ldaCost (x j) (classMean x y (fun l => if e.hasMean then K l else 1) c) C
      (classPrior y (fun l => if e.hasPrior then K l else 1) c)
    C.det ≠ 0 → (∃ l, y l = o.group j) ∧ ∀ l, cost (o.group j) ≤ cost (y l) := by
  intro K C cost hdet
  obtain ⟨W, hW, hrun, hpub⟩ := full_ok h
  obtain ⟨-, -, hg, -⟩ := publish_ok hpub
  have hWj : ∀ j, W j = fun l : Fin n => kernelFormula kernel bw (plane (coords.val j) (coords.val l)) := fun j => ((weights_fixed hb).1 hW j).2.2
  have hK : ∀ l, usedWeight st W j l = K l := by intro l; simp only [usedWeight, hWj, K]
  have hnn : ∀ j l, 0 ≤ W j l := by intro j l; rw [hWj]; exact kernelFormula_nonneg kernel hb _
  refine ⟨?_, fun l => ?_⟩
  · obtain ⟨i, hi, -, l, hl⟩ := C45_group y (o.scores j) j.pos
    refine ⟨l, ?_⟩
    rw [hl]
    exact Res.ok.inj (hi.symm.trans (hg j))
  · have := C79_linear_rule e st st' hst x y W hnn o.scores hrun j (o.group j) (hg j) (by simp only [hK]; exact hdet) l
    simpa only [hK] using this

/-- C106 (published numbers): the correct rate is the share of the observations that are named their own class; the probabilities of a row are its scores,
all but the last exponentiated, over their sum; `pmax` is the largest of them; the entropy is the Shannon entropy of the row over the logarithm of the
number of classes less one, in bits, if the row is a distribution. The class named has the smallest score. -/
theorem C106_published (e : GwdaEnv k) (st st' : GwdaState) (p : Option (DynMat × DynMat)) (b : BandwidthWeight) (coords : DynMat)
    (x : Matrix (Fin n) (Fin k) ℝ) (y : Fin n → α) (hn : 0 < n) (o) (h : gwdaFull e st ⟨false, p⟩ b coords x y = .ok (st', o)) :
    o.correctRate * n = Fintype.card {l // o.group l = y l} ∧
    (∀ j, ∃ i, o.group j = (gwdaLevels (List.ofFn y)).get i ∧ ∀ i', o.scores j i ≤ o.scores j i') ∧
    ∀ j q, o.probs j = .ok q →
      (∃ t : Fin (gwdaLevels (List.ofFn y)).length → ℝ, (∀ i, t i = if i.val + 1 = (gwdaLevels (List.ofFn y)).length then o.scores j i else Real.exp (o.scores j i)) ∧
        ∀ i, q i = t i / ∑ i', t i') ∧
      (∃ v, o.pmax j = .ok v ∧ (∃ i, q i = v) ∧ ∀ i, q i ≤ v) ∧
      ((∀ i, 0 ≤ q i) → 3 ≤ (Finset.univ.image y).card →
        o.entropy j = .ok (entropyBits q / (Real.log (((Finset.univ.image y).card - 1 : ℕ) : ℝ) / Real.log 2))) := by
  obtain ⟨W, hW, hrun, hpub⟩ := full_ok h
  obtain ⟨hm, -, hg, hc, hpr, hmax, hen⟩ := publish_ok hpub
  refine ⟨?_, fun j => ?_, fun j q hq => ?_⟩
  · obtain ⟨v, hv, h1, -⟩ := C45_correct_rate y o.group hn
    rw [hc] at hv
    cases Res.ok.inj hv
    exact h1
  · obtain ⟨i, hi, hmin, -⟩ := C45_group y (o.scores j) hn
    exact ⟨i, Res.ok.inj ((hg j).symm.trans hi), hmin⟩
  · rw [hpr] at hq
    have hsum := C84_sum_one_partial _ _ hq
    refine ⟨probs_eq hq, ⟨_, by rw [hmax, hq]; rfl, ?_, fun i => ?_⟩, fun hnn h3 => ?_⟩
    · haveI : Nonempty (Fin (gwdaLevels (List.ofFn y)).length) := ⟨⟨0, by omega⟩⟩
      exact exists_eq_ciSup_of_finite
    · exact le_ciSup (Set.finite_range q).bddAbove i
    · rw [← levels_card] at h3 ⊢
      rw [hen, hq]
      change gwdaEntropy q = _
      have hc1 : ((gwdaLevels (List.ofFn y)).length : ℝ) - 1 = (((gwdaLevels (List.ofFn y)).length - 1 : ℕ) : ℝ) := by
        rw [Nat.cast_sub (by omega)]; norm_num
      have hpos : (1 : ℝ) < (((gwdaLevels (List.ofFn y)).length - 1 : ℕ) : ℝ) := by
        exact_mod_cast (by omega : 1 < (gwdaLevels (List.ofFn y)).length - 1)
      unfold gwdaEntropy
      rw [shannon_const (by omega) _ (by rw [hc1]; positivity), C45_entropy_formula (by omega) q hnn hsum]
      simp only [Res.bind]
      rw [fdiv, if_neg (Real.logb_pos (by norm_num) hpos).ne', Real.logb]

/-- A run to which C106 applies: the data set of C82, at four points of a square of side 1, with a boxcar kernel of bandwidth 10. -/
theorem ex_daFull (nrm sing) (hN : ∀ A, IsLargestSV A (nrm A)) : ∃ st' o, gwdaFull (daEnv nrm sing) ⟨false, false, false⟩ ⟨false, none⟩ ⟨10, false, .Boxcar⟩
      ⟨4, 2, fun i c => if c = 0 then (if i < 2 then 0 else 1) else (if i = 0 ∨ i = 2 then 0 else 1)⟩ (daX 1 20) daY = .ok (st', o) ∧
    ∃ q, o.probs 0 = .ok q := by
  set coords : DynMat := ⟨4, 2, fun i c => if c = 0 then (if i < 2 then 0 else 1) else (if i = 0 ∨ i = 2 then 0 else 1)⟩ with hc
  have hval : ∀ i c, 0 ≤ coords.val i c ∧ coords.val i c ≤ 1 := by
    intro i c; simp only [hc]; split_ifs <;> norm_num
  have hW : weightRows ⟨false, some (coords, coords)⟩ ⟨10, false, .Boxcar⟩ 4 4 = .ok fun _ _ => 1 := by
    rw [weights_fixed (by norm_num)]
    refine fun i => ⟨i.isLt, rfl, ?_⟩
    funext j
    have h : plane (coords.val i) (coords.val j) < 10 := by
      unfold plane
      rw [Real.sqrt_lt' (by norm_num)]
      obtain ⟨a1, a2⟩ := hval i 0
      obtain ⟨b1, b2⟩ := hval i 1
      obtain ⟨c1, c2⟩ := hval j 0
      obtain ⟨d1, d2⟩ := hval j 1
      nlinarith
    simp only [kernelFormula, if_pos h]
  have hrun := da_run nrm sing hN 1 20 one_pos ⟨false, false, false⟩ rfl
  choose g hg using fun j : Fin 4 => C45_group daY (fun i => Real.log (1 ^ 2) + 1 / 2 * daDist (false || false) 20 j i.val + Real.log 8) (by norm_num)
  obtain ⟨cr, hcr, -⟩ := C45_correct_rate daY (fun j => (gwdaLevels (List.ofFn daY)).get (g j)) (by norm_num)
  have hlen : (gwdaLevels (List.ofFn daY)).length = 2 := by rw [da_levels]; rfl
  have hprob : ∀ m (hm : m = 2), ∃ q, gwdaProbs (fun i : Fin m => Real.log (1 ^ 2) + 1 / 2 * daDist (false || false) 20 0 i.val + Real.log 8) = .ok q := by
    rintro m rfl
    have h8 : 0 < Real.log 8 := Real.log_pos (by norm_num)
    have hne : ¬ ∑ i : Fin 2, (if i.val < 2 - 1 then Real.exp (Real.log (1 ^ 2) + 1 / 2 * daDist (false || false) 20 0 i.val + Real.log 8)
        else Real.log (1 ^ 2) + 1 / 2 * daDist (false || false) 20 0 i.val + Real.log 8) = 0 := by
      rw [Fin.sum_univ_two]
      norm_num [daDist]
      have := Real.exp_pos (2 + Real.log 8)
      linarith
    exact ⟨_, if_neg hne⟩
  obtain ⟨q, hq⟩ := hprob _ hlen
  have hpub : ∃ o, gwdaPublish daY (gwdaLevels (List.ofFn daY)) (fun j i => Real.log (1 ^ 2) + 1 / 2 * daDist (false || false) 20 j i.val + Real.log 8) =
      .ok o ∧ o.probs 0 = .ok q := by
    unfold gwdaPublish
    rw [(Res.tabulate_eq_ok (n := 4)).2 fun j => (hg j).1]
    simp only [Res.bind, hcr]
    rw [if_neg (by rw [hlen]; norm_num), shannon_const (by rw [hlen]; norm_num) _ (by rw [hlen]; norm_num)]
    exact ⟨_, rfl, hq⟩
  obtain ⟨o, ho, hoq⟩ := hpub
  refine ⟨⟨false, false, true⟩, o, ?_, q, hoq⟩
  · unfold gwdaFull
    rw [bindLocations_eq_ok.2 ⟨rfl, rfl, rfl⟩]
    simp only [Res.bind]
    rw [if_neg (by norm_num), hW]
    simp only [hrun, ho]

end Verif.Props

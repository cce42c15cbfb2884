import Verif.Model.GWRSelect
import Verif.Spec.VarSelect
import Verif.Props.GWRDefinition
import Verif.Props.ForwardSelector
import Verif.Props.GWRScalable

/-! Selection of variables inside a basic regression run (C102). -/

namespace Verif.Props
open Verif Verif.Model Verif.Spec Matrix Classical

variable {n k : ℕ}

theorem pickCols_ok {x : Matrix (Fin n) (Fin k) ℝ} {cols : List ℕ} {X} (h : pickCols x cols = .ok X) :
    Columns x cols X ∧ ∀ c ∈ cols, c < k := by
  unfold pickCols at h
  by_cases hc : ∀ c ∈ cols, c < k
  · rw [dif_pos hc] at h
    refine ⟨⟨rfl, fun j => ⟨⟨cols[j.val], hc _ (List.getElem_mem _)⟩, by simp, fun i => ?_⟩⟩, hc⟩
    rw [← Res.ok.inj h]; rfl
  · rw [dif_neg hc] at h; cases h

theorem candidates_eq (k : ℕ) (hi : Bool) :
    candidates k hi = (List.range (k - if hi = true then 1 else 0)).map fun i => i + if hi = true then 1 else 0 := by
  unfold candidates
  cases hi
  · simp
  · rcases k with - | k
    · simp
    · rw [List.range_succ_eq_map, List.filter_cons_of_neg (by simp)]
      rw [List.filter_eq_self.2 (by simp)]
      simp

theorem shat_leverage {x : Matrix (Fin n) (Fin k) ℝ} {y : Fin n → ℝ} {W : Fin n → Fin n → ℝ} (i : Fin n) :
    (fitAt x y W i).si i = leverage x (W i) i := by
  rw [hat_entry, leverage_eq, dotProduct_mulVec]
  simp only [dotProduct, mul_comm]

theorem aicc_core {x : Matrix (Fin n) (Fin k) ℝ} {y : Fin n → ℝ} {W : Fin n → Fin n → ℝ} (hW : ∀ i l, 0 ≤ W i l)
    (hdet : ∀ i, Determined x (W i)) :
    ∃ b s, fitCoreSHatSerial x y W 0 n NoStop = .ok ((b, s), false) ∧ (∀ i, IsWLS x y (W i) (b i)) ∧
      s 0 = ∑ i, leverage x (W i) i := by
  have hpd : ∀ i, (xtwx x (W i)).PosDef := fun i => (gram_posDef_iff_determined x (W i) (hW i)).2 (hdet i)
  obtain ⟨b, e, hb, -⟩ := shatLoop_ok (x := x) (y := y) (W := W) 0 n (fun i _ _ => hpd i)
  refine ⟨b, _, e, fun i => ?_, ?_⟩
  · rw [hb i (Nat.zero_le _) i.isLt]; exact isWLS_of_posDef (hpd i)
  · rw [sum_workRange, Finset.sum_apply]
    exact Finset.sum_congr rfl fun i _ => shat_leverage i

theorem aicc_formula {x : Matrix (Fin n) (Fin k) ℝ} {y : Fin n → ℝ} {B : Matrix (Fin n) (Fin k) ℝ} {t v : ℝ} :
    aicc x y B t = .ok v → v = aiccFormula n (residualSS x y B) t := by
  intro h
  unfold aicc fdiv flog at h
  by_cases h0 : (n : ℝ) = 0
  · simp [h0, Res.bind] at h
  by_cases h1 : rss x y B / n ≤ 0
  · simp [h0, h1, Res.bind] at h
  by_cases h2 : (n : ℝ) - 2 - t = 0
  · simp [h0, h1, h2, Res.bind] at h
  simp only [h0, h1, h2, if_false, Res.bind, Res.ok.injEq] at h
  rw [← h, aiccFormula]
  simp only [rss, fitted, residualSS, sq, mul_comm]

/-- **C102 (criterion).** The value the selection compares for a set of variables is the corrected Akaike criterion of the regression on exactly
these columns (the intercept first, if there is one), with kernel weights of bandwidth `DBL_MAX`; or `DBL_MAX`, if that regression is not
determined. -/
theorem C102_criterion (kernel : KernelType) (bw : ℝ) (coords : DynMat) (hr : coords.nRows = n) (x : Matrix (Fin n) (Fin k) ℝ)
    (y : Fin n → ℝ) (hasIntercept : Bool) (vars : List ℕ) (v : ℝ)
    (h : gwrVarsCriterion ⟨false, some (coords, coords)⟩ ⟨bw, false, kernel⟩ x y hasIntercept vars = .ok v) :
    ∃ (k' : ℕ) (X : Matrix (Fin n) (Fin k') ℝ), Columns x (modelColumns hasIntercept vars) X ∧
      IsAICcOrWorst kernel dblMax dblMax (fun i => coords.val i) X y v := by
  obtain ⟨X, hX, h⟩ := Res.bind_eq_ok'.1 h
  refine ⟨_, X, (pickCols_ok hX).1, ?_⟩
  have hpos : (0 : ℝ) < dblMax := by linarith [hundred_lt_dblMax]
  have hW : weightRows ⟨false, some (coords, coords)⟩ ⟨dblMax, false, kernel⟩ n n =
      .ok fun i l => kernelFormula kernel dblMax (plane (coords.val i) (coords.val l)) :=
    (weights_fixed hpos).2 fun i => ⟨by rw [hr]; exact i.isLt, hr, rfl⟩
  change (match weightRows ⟨false, some (coords, coords)⟩ ⟨dblMax, false, kernel⟩ n n with | .ok W => _ | _ => _) = _ at h
  rw [hW] at h
  have hnn : ∀ i l : Fin n, 0 ≤ kernelFormula kernel dblMax (plane (coords.val i) (coords.val l)) :=
    fun _ _ => kernelFormula_nonneg kernel hpos _
  by_cases hdet : ∀ i : Fin n, Determined X fun l : Fin n => kernelFormula kernel dblMax (plane (coords.val i) (coords.val l))
  · obtain ⟨b, s, e, hb, hs⟩ := aicc_core (y := y) hnn hdet
    simp only [show (fun _ : ℕ => false) = NoStop from rfl, e] at h
    exact Or.inl ⟨b, hb, by rw [aicc_formula h, hs]⟩
  · push Not at hdet
    have hf : fitCoreSHatSerial X y (fun i l => kernelFormula kernel dblMax (plane (coords.val i) (coords.val l))) 0 n NoStop =
        .throw .singular := by
      obtain ⟨i, hi⟩ := hdet
      refine serialFor_fail (fun i => localFit_cases X y _ (X i)) _ 0 _ (fun _ _ => rfl)
        ⟨i, mem_workRange.2 ⟨Nat.zero_le _, i.isLt⟩, ?_⟩
      rcases localFit_cases X y (fun l : Fin n => kernelFormula kernel dblMax (plane (coords.val i) (coords.val l))) (X i) with ⟨r, hr⟩ | hr
      · exact absurd ((gram_posDef_iff_determined X _ (hnn i)).1 (localFit_eq_ok.1 hr).1) hi
      · exact hr
    simp only [show (fun _ : ℕ => false) = NoStop from rfl, hf] at h
    exact Or.inr ⟨hdet, (Res.ok.inj h).symm⟩

theorem candidates_length (k : ℕ) (hi : Bool) : (candidates k hi).length = k - if hi = true then 1 else 0 := by
  rw [candidates_eq]; simp

theorem names_candidates {k : ℕ} {hi : Bool} {l : List ℕ} (h : ∀ i ∈ l, i < k - if hi = true then 1 else 0) :
    names (candidates k hi) l = l.map fun i => i + if hi = true then 1 else 0 := by
  refine List.map_congr_left fun i hmem => ?_
  rw [candidates_eq, List.getD_eq_getElem?_getD, List.getElem?_map, List.getElem?_range (h i hmem)]
  rfl

theorem lastGap_map {thr : ℝ} {l : List (List ℕ × ℝ)} {m : List ℕ × ℝ} (f : List ℕ → List ℕ) (h : LastGap thr l m) :
    LastGap thr (l.map fun m => (f m.1, m.2)) (f m.1, m.2) := by
  obtain ⟨i, hi, e, hg, hl⟩ := h
  refine ⟨i, by simpa using hi, by simp [e], by simpa using hg, fun j hj hij => ?_⟩
  have := hl j (by simpa using hj) hij
  simpa using this

theorem greedy_entries {N : ℕ} {path : List ℕ} {visited : List (List ℕ × ℝ)} (h : GreedySearch N path visited) :
    ∀ m ∈ visited, m.1 ≠ [] ∧ ∀ i ∈ m.1, i < N := by
  intro m hm
  obtain ⟨s, hs, v, hv, -, e⟩ := h.only m hm
  rw [e]
  refine ⟨by simp, fun i hi => ?_⟩
  rcases List.mem_append.1 hi with hi | hi
  · exact List.mem_range.1 (h.perm.mem_iff.1 (List.mem_of_mem_take hi))
  · rw [List.mem_singleton.1 hi]; exact hv

theorem selectVars_spec {crit : List ℕ → Res ℝ} {srt : List FModel → List FModel} (hsrt : IsStdSort srt) {thr : ℝ} {x : Matrix (Fin n) (Fin k) ℝ}
    {hasIntercept : Bool} {s : Selected n} (h : selectVars crit srt thr x hasIntercept = .ok s) :
    let first := if hasIntercept = true then 1 else 0
    ∃ path visited, GreedySearch (k - first) path visited ∧
      (∀ m ∈ visited, crit (m.1.map fun i => i + first) = .ok m.2) ∧
      s.criteria.Perm (visited.map fun m => (m.1.map fun i => i + first, m.2)) ∧
      s.criteria.Pairwise (fun a b => a.1.length < b.1.length ∨ (a.1.length = b.1.length ∧ b.2 ≤ a.2)) ∧
      (∃ c, LastGap thr s.criteria (s.vars, c)) ∧
      s.vars.Nodup ∧ s.vars ≠ [] ∧ (∀ v ∈ s.vars, first ≤ v ∧ v < k) ∧
      Columns x (modelColumns hasIntercept s.vars) s.x := by
  intro first
  unfold selectVars at h
  obtain ⟨r, hf, h⟩ := Res.bind_eq_ok'.1 h
  by_cases hall : ∀ m ∈ r.evals, ∃ v, crit
      (convertIndex (candidates k hasIntercept) m.1) = .ok v
  swap
  · rw [if_neg hall] at h; cases h
  rw [if_pos hall] at h
  obtain ⟨sel, hsel, h⟩ := Res.bind_eq_ok'.1 h
  obtain ⟨X, hX, h⟩ := Res.bind_eq_ok'.1 h
  have hs := (Res.ok.inj h).symm
  obtain ⟨⟨path, hg⟩, -, -, hnd, hcrit⟩ := C19_greedy_search srt _ thr _ r hf (fun _ _ => rfl)
  obtain ⟨sorted, hsorted, hperm, hpw, hnames⟩ := C19_reported_list srt hsrt _ thr _ r hf (fun _ _ => rfl)
  rw [candidates_length] at hg
  have hent := greedy_entries hg
  obtain ⟨m, hm, hgap, hsm⟩ : ∃ m ∈ r.evals, LastGap thr sorted m ∧ sel = names (candidates k hasIntercept) m.1 := by
    obtain ⟨s', hs', ⟨hst, hi, hrest, -⟩ | ⟨-, he, -⟩⟩ := forward_cases srt (candidates k hasIntercept) thr
        (fun _ vs => (true, match crit vs with
          | .ok v => v | _ => 0))
    · obtain ⟨sorted', -, he⟩ := forward_success srt _ thr _ s' hs' hst hi hrest
      have hr' := Res.ok.inj (hf.symm.trans he)
      rw [hr'] at hsel hsorted
      obtain ⟨m, hm, hm2⟩ := Res.bind_eq_ok'.1 hsel
      cases Option.some.inj hsorted
      have hg := (C20_selects_last_gap_partial _ _ _).1 hm
      obtain ⟨i, hi1, e, -⟩ := id hg
      exact ⟨m, hperm.mem_iff.1 (e ▸ List.getElem_mem hi1), hg, (Res.ok.inj hm2).symm⟩
    · have hr' := Res.ok.inj (hf.symm.trans he)
      rw [hr'] at hsorted; cases hsorted
  have hne : 0 < sel.length := by
    rw [hsm, names, List.length_map]; exact List.length_pos_iff.2 (hent m hm).1
  have hself : sel = m.1.map fun i => i + first := by rw [hsm, names_candidates (hent m hm).2]
  have hcr : s.criteria = sorted.map fun m => (names (candidates k hasIntercept) m.1, m.2) := by
    rw [hs, ← hnames]; simp only [hsorted, if_pos hne, Option.getD_some]
  have hnm : ∀ m ∈ r.evals, names (candidates k hasIntercept) m.1 = m.1.map fun i => i + first := fun m hm =>
    names_candidates (hent m hm).2
  have hcr2 : s.criteria = sorted.map fun m => (m.1.map fun i => i + first, m.2) := by
    rw [hcr]; exact List.map_congr_left fun m hm => by rw [hnm m (hperm.mem_iff.1 hm)]
  have hv : s.vars = sel := by rw [hs]
  refine ⟨path, r.evals, hg, fun m hm => ?_, ?_, ?_, ⟨m.2, ?_⟩, ?_, ?_, ?_, ?_⟩
  · obtain ⟨i, hi, e⟩ := List.getElem_of_mem hm
    obtain ⟨v, hv⟩ := hall m hm
    have h1 := hcrit i hi
    rw [e, show names (candidates k hasIntercept) m.1 = convertIndex (candidates k hasIntercept) m.1 from rfl] at h1
    simp only [hv] at h1
    rw [← h1, ← hnm m hm]
    exact hv
  · rw [hcr2]; exact hperm.map _
  · rw [hcr2, List.pairwise_map]; simpa using hpw
  · rw [hcr2, hv, hself]; exact lastGap_map _ hgap
  · rw [hv, hself]; exact (hnd m hm).1.map (fun a b hab => by simpa using hab)
  · rw [hv]; exact List.length_pos_iff.1 hne
  · rw [hv, hself]
    intro v hv
    obtain ⟨i, hi, rfl⟩ := List.mem_map.1 hv
    have := (hent m hm).2 i hi
    exact ⟨Nat.le_add_left _ _, by omega⟩
  · rw [hs]
    have := (pickCols_ok hX).1
    simp only [if_pos hne] at this ⊢
    exact this

/-- **C102 (selection).** Automatic selection of variables in a basic regression with a fixed bandwidth is a greedy forward search over all
columns but the intercept, by that criterion; the reported list contains exactly the visited models; the selected variables are those of the last
entry of the list that improves on the entry before it by at least the threshold; they are distinct columns of the data, and the matrix the model
continues with consists of the intercept and these columns in the order of selection. -/
theorem C102_selected_variables (srt : List FModel → List FModel) (hsrt : IsStdSort srt) (thr : ℝ) (kernel : KernelType) (bw : ℝ)
    (coords : DynMat) (hr : coords.nRows = n) (x : Matrix (Fin n) (Fin k) ℝ) (y : Fin n → ℝ) (hasIntercept : Bool) (s : Selected n)
    (h : gwrSelectVars srt thr ⟨false, some (coords, coords)⟩ ⟨bw, false, kernel⟩ x y hasIntercept = .ok s) :
    let first := if hasIntercept = true then 1 else 0
    ∃ path visited, GreedySearch (k - first) path visited ∧
      (∀ m ∈ visited, ∃ (k' : ℕ) (X : Matrix (Fin n) (Fin k') ℝ),
        Columns x (modelColumns hasIntercept (m.1.map fun i => i + first)) X ∧
        IsAICcOrWorst kernel dblMax dblMax (fun i => coords.val i) X y m.2) ∧
      s.criteria.Perm (visited.map fun m => (m.1.map fun i => i + first, m.2)) ∧
      s.criteria.Pairwise (fun a b => a.1.length < b.1.length ∨ (a.1.length = b.1.length ∧ b.2 ≤ a.2)) ∧
      (∃ c, LastGap thr s.criteria (s.vars, c)) ∧
      s.vars.Nodup ∧ s.vars ≠ [] ∧ (∀ v ∈ s.vars, first ≤ v ∧ v < k) ∧
      Columns x (modelColumns hasIntercept s.vars) s.x := by
  intro first
  obtain ⟨path, visited, h1, h2, h3⟩ := selectVars_spec hsrt h
  exact ⟨path, visited, h1, fun m hm => C102_criterion kernel bw coords hr x y hasIntercept _ _ (h2 m hm), h3⟩

/-- **C102 (fit).** The coefficients that a fit with automatic selection of variables returns are those of geographically weighted regression, with
the configured bandwidth, on the selected columns. -/
theorem C102_fit_uses_selected (srt : List FModel → List FModel) (thr : ℝ) (p : Option (DynMat × DynMat))
    (kernel : KernelType) (bw : ℝ) (hb : 0 < bw) (coords : DynMat) (x : Matrix (Fin n) (Fin k) ℝ)
    (y : Fin n → ℝ) (hasIntercept sS sC : Bool) (s : Selected n) (a : FitAcc n s.cols.length)
    (h : gwrVarFit srt thr ⟨false, p⟩ ⟨bw, false, kernel⟩ coords x y hasIntercept sS sC = .ok ⟨s, a⟩) :
    gwrSelectVars srt thr ⟨false, some (coords, coords)⟩ ⟨bw, false, kernel⟩ x y hasIntercept = .ok s ∧
    IsGWRFixed kernel bw (fun i => coords.val i) (fun l => coords.val l) s.x y a.betas := by
  unfold gwrVarFit at h
  obtain ⟨d', hd, h1⟩ := Res.bind_eq_ok'.1 h
  obtain ⟨s', hs, h2⟩ := Res.bind_eq_ok'.1 h1
  obtain ⟨⟨a', t⟩, ha, h3⟩ := Res.bind_eq_ok'.1 h2
  clear h h1 h2
  obtain ⟨-, -, rfl⟩ := bindLocations_eq_ok.1 hd
  have e := Res.ok.inj h3
  obtain ⟨rfl, e2⟩ := Sigma.mk.inj e
  cases eq_of_heq e2
  refine ⟨hs, ?_⟩
  have ht : t = false := by
    have ha' := ha
    unfold gwrFit at ha'
    obtain ⟨_, -, ha'⟩ := Res.bind_eq_ok'.1 ha'
    obtain ⟨_, -, ha'⟩ := Res.bind_eq_ok'.1 ha'
    exact serialFor_nostop _ _ _ ha'
  rw [ht] at ha
  exact C98_fit_is_gwr _ _ _ hb _ _ _ _ _ _ _ ha

/-- **C102 (fit, both selections).** With automatic bandwidth selection as well, the coefficients are those of the regression on the selected
columns with the reported bandwidth. -/
theorem C102_auto_fit_uses_selected (srt : List FModel → List FModel) (thr : ℝ) (c : Crit) (p : Option (DynMat × DynMat))
    (b0 b : BandwidthWeight) (lower upper : Option ℝ) (coords : DynMat) (x : Matrix (Fin n) (Fin k) ℝ)
    (y : Fin n → ℝ) (hasIntercept sS sC : Bool) (s : Selected n) (a : FitAcc n s.cols.length)
    (hf : b.mAdaptive = false) (hb : 0 < b.mBandwidth)
    (h : gwrVarAutoFit srt thr c ⟨false, p⟩ b0 lower upper coords x y hasIntercept sS sC = .ok ⟨s, (b, a)⟩) :
    gwrSelectVars srt thr ⟨false, some (coords, coords)⟩ b0 x y hasIntercept = .ok s ∧
    IsGWRFixed b.mKernel b.mBandwidth (fun i => coords.val i) (fun l => coords.val l) s.x y a.betas := by
  unfold gwrVarAutoFit at h
  obtain ⟨d', hd, h1⟩ := Res.bind_eq_ok'.1 h
  obtain ⟨s', hs, h2⟩ := Res.bind_eq_ok'.1 h1
  obtain ⟨⟨b', a'⟩, ha, h3⟩ := Res.bind_eq_ok'.1 h2
  clear h h1 h2
  obtain ⟨-, -, rfl⟩ := bindLocations_eq_ok.1 hd
  obtain ⟨rfl, e2⟩ := Sigma.mk.inj (Res.ok.inj h3)
  cases eq_of_heq e2
  exact ⟨hs, C98_auto_fit_is_gwr _ _ _ _ _ _ _ _ _ _ _ _ hf hb ha⟩

/-- **C102 (bandwidth), refuted.** Which variables are selected does not depend on the bandwidth of the model. -/
theorem C102_selection_ignores_bandwidth (srt : List FModel → List FModel) (thr : ℝ) (d : CRSDistance) (kernel : KernelType)
    (adaptive : Bool) (bw bw' : ℝ) (x : Matrix (Fin n) (Fin k) ℝ) (y : Fin n → ℝ) (hasIntercept : Bool) :
    gwrSelectVars srt thr d ⟨bw, adaptive, kernel⟩ x y hasIntercept = gwrSelectVars srt thr d ⟨bw', adaptive, kernel⟩ x y hasIntercept :=
  rfl

theorem selected_cols {srt : List FModel → List FModel} (hsrt : IsStdSort srt) {thr : ℝ} {d : CRSDistance} {b : BandwidthWeight}
    {x : Matrix (Fin n) (Fin k) ℝ} {y : Fin n → ℝ} {hasIntercept : Bool} {s : Selected n}
    (h : gwrSelectVars srt thr d b x y hasIntercept = .ok s) :
    s.cols = (if 0 < s.vars.length then index2uvec s.vars hasIntercept else List.range k) ∧
      ∃ r, (forwardOptimize srt (candidates k hasIntercept) thr fun _ vs => (true, match gwrVarsCriterion d b x y hasIntercept vs with
        | .ok v => v | _ => 0)) = .ok r ∧ r.out = .ok s.vars := by
  unfold gwrSelectVars selectVars at h
  obtain ⟨r, hf, h⟩ := Res.bind_eq_ok'.1 h
  by_cases hall : ∀ m ∈ r.evals, ∃ v, gwrVarsCriterion d b x y hasIntercept (convertIndex (candidates k hasIntercept) m.1) = .ok v
  swap
  · rw [if_neg hall] at h; cases h
  rw [if_pos hall] at h
  obtain ⟨sel, hsel, h⟩ := Res.bind_eq_ok'.1 h
  obtain ⟨X, hX, h⟩ := Res.bind_eq_ok'.1 h
  have hs := (Res.ok.inj h).symm
  subst hs
  exact ⟨rfl, r, hf, hsel⟩

/-- **C102 (second fit), refuted.** The selection replaces the data of the object. If it chose one variable, a second `fit` of the same object never
gets past the selection. -/
theorem C102_second_fit_undefined (srt : List FModel → List FModel) (hsrt : IsStdSort srt) (thr : ℝ) (d : CRSDistance)
    (b b' : BandwidthWeight) (x : Matrix (Fin n) (Fin k) ℝ) (y : Fin n → ℝ) (hasIntercept : Bool) (s : Selected n)
    (h : gwrSelectVars srt thr d b x y hasIntercept = .ok s) (h1 : s.vars.length = 1) (s' : Selected n) :
    gwrSelectVars srt thr d b' s.x y hasIntercept ≠ .ok s' := by
  intro h'
  obtain ⟨hc, -⟩ := selected_cols hsrt h
  obtain ⟨-, r, hr, ho⟩ := selected_cols hsrt h'
  have hcand : candidates s.cols.length hasIntercept = [if hasIntercept = true then 1 else 0] := by
    have hl : s.cols.length = if hasIntercept = true then 2 else 1 := by
      rw [hc, if_pos (by rw [h1]; exact one_pos)]
      cases hasIntercept <;> simp [index2uvec, h1]
    rw [hl, candidates_eq]
    cases hasIntercept <;> simp
  rw [hcand] at hr
  obtain ⟨r', hr', ho'⟩ := C20_single_candidate_undefined srt hsrt (if hasIntercept = true then 1 else 0) thr
    (fun _ vs => (true, match gwrVarsCriterion d b' s.x y hasIntercept vs with | .ok v => v | _ => 0)) (fun _ _ => rfl)
  rw [hr] at hr'
  cases Res.ok.inj hr'
  rw [ho] at ho'; cases ho'

/-- Six observations: the intercept and two covariates, orthogonal to each other and to the response. -/
def selX : Matrix (Fin 6) (Fin 3) ℝ := !![1, 1, 0; 1, -1, 0; 1, 0, 1; 1, 0, -1; 1, 0, 0; 1, 0, 0]

def selY : Fin 6 → ℝ := ![0, 0, 0, 0, 1, -1]

theorem ortho_criterion {k' : ℕ} {X : Matrix (Fin n) (Fin k') ℝ} {y : Fin n → ℝ} (hdet : Determined X fun _ => 1)
    (ho : ∀ j, ∑ i, X i j * y i = 0) (hy : ∃ i, y i ≠ 0) (hn : (n : ℝ) - 2 - k' ≠ 0) :
    ∃ r, fitCoreSHatSerial X y (fun _ _ => 1) 0 n NoStop = .ok r ∧
      aicc X y r.1.1 (r.1.2 0) = .ok (aiccFormula n (∑ i, y i ^ 2) k') := by
  obtain ⟨b, s, e, hb, hs⟩ := aicc_core (y := y) (W := fun _ _ => 1) (fun _ _ => zero_le_one) (fun _ => hdet)
  have hpd := (gram_posDef_iff_determined X (fun _ => 1) (fun _ => zero_le_one)).2 hdet
  refine ⟨_, e, ?_⟩
  have h0 : xtw X (fun _ => 1) *ᵥ y = 0 := by
    funext j
    simpa [mulVec, dotProduct, xtw] using ho j
  have hb0 : ∀ i, b i = 0 := by
    intro i
    have hz : IsWLS X y (fun _ => 1) 0 := by
      have := isWLS_of_posDef (y := y) hpd
      rwa [h0, mulVec_zero] at this
    by_contra hne
    exact lt_asymm (hb i 0 (Ne.symm hne)) (hz (b i) hne)
  have ht : s 0 = k' := by
    rw [hs]
    have e1 : ∀ i, leverage X (fun _ => 1) i = (X * ((xtwx X fun _ => 1)⁻¹ * Xᵀ)) i i := by
      intro i
      rw [leverage_eq, mul_one, Matrix.mul_apply]
      simp only [dotProduct, mulVec, Matrix.mul_apply, transpose_apply]
    have e2 : ∑ i, leverage X (fun _ => 1) i = Matrix.trace (X * ((xtwx X fun _ => 1)⁻¹ * Xᵀ)) := by
      simp only [e1, Matrix.trace, diag_apply]
    have e3 : xtwx X (fun _ => 1) = Xᵀ * X := by
      ext a c; simp [xtwx, xtw, Matrix.mul_apply]
    rw [e2, Matrix.trace_mul_comm, Matrix.mul_assoc, ← e3, nonsing_inv_mul _ ((isUnit_iff_isUnit_det _).1 hpd.isUnit)]
    simp
  have hrss : rss X y b = ∑ i, y i ^ 2 := by
    simp [rss, fitted, hb0, sq]
  obtain ⟨i0, hi0⟩ := hy
  have hn0 : (n : ℝ) ≠ 0 := by
    have : 0 < n := Fin.pos i0
    positivity
  have hpos : 0 < ∑ i, y i ^ 2 := Finset.sum_pos' (fun i _ => sq_nonneg _) ⟨i0, Finset.mem_univ _, by positivity⟩
  have hq : ¬ (∑ i, y i ^ 2) / (n : ℝ) ≤ 0 := by
    have : (0 : ℝ) < n := lt_of_le_of_ne (Nat.cast_nonneg _) (Ne.symm hn0)
    rw [not_le]; positivity
  simp only [aicc, fdiv, flog, hrss, ht, hn0, hq, hn, if_false, Res.bind, aiccFormula]

/-- Six points on a line. -/
def selCoords : DynMat := ⟨6, 2, fun i k => if k = 0 then i else 0⟩

theorem selPlane {bw : ℝ} (hb : 10 < bw) (i l : Fin 6) :
    kernelFormula .Boxcar bw (plane (selCoords.val i) (selCoords.val l)) = 1 := by
  have hd : plane (selCoords.val i) (selCoords.val l) < bw := by
    refine lt_of_le_of_lt ?_ hb
    have hi : (i.val : ℝ) ≤ 5 := by exact_mod_cast Nat.le_of_lt_succ i.isLt
    have hl : (l.val : ℝ) ≤ 5 := by exact_mod_cast Nat.le_of_lt_succ l.isLt
    have hi0 : (0 : ℝ) ≤ i.val := Nat.cast_nonneg _
    have hl0 : (0 : ℝ) ≤ l.val := Nat.cast_nonneg _
    simp only [plane, selCoords]
    refine Real.sqrt_le_iff.2 ⟨by norm_num, ?_⟩
    norm_num
    nlinarith
  simp only [kernelFormula, hd, if_true]

theorem sel_core {vars : List ℕ} {k' : ℕ} (hv : ∀ c ∈ index2uvec vars true, c < 3)
    (hk : (index2uvec vars true).length = k') (hk4 : k' < 4)
    (hdet : Determined (Matrix.of fun i j => selX i ⟨(index2uvec vars true)[j.val], hv _ (List.getElem_mem _)⟩ :
      Matrix (Fin 6) (Fin (index2uvec vars true).length) ℝ) fun _ => 1) :
    ∃ X, pickCols selX (index2uvec vars true) = .ok X ∧ ∃ r, fitCoreSHatSerial X selY (fun _ _ => 1) 0 6 NoStop = .ok r ∧
      aicc X selY r.1.1 (r.1.2 0) = .ok (aiccFormula 6 2 k') := by
  have ho : ∀ c : Fin 3, ∑ i, selX i c * selY i = 0 := by
    intro c; fin_cases c <;> norm_num [selX, selY, Fin.sum_univ_succ]
  have hk4' : (k' : ℝ) < 4 := by exact_mod_cast hk4
  obtain ⟨r, hr, ha⟩ := ortho_criterion (y := selY) hdet (fun j => ho _) ⟨4, show (1 : ℝ) ≠ 0 from one_ne_zero⟩
    (by rw [hk]; push_cast; intro h0; linarith)
  have hsum : ∑ i, selY i ^ 2 = 2 := by norm_num [selY, Fin.sum_univ_succ]
  refine ⟨_, by rw [pickCols, dif_pos hv], r, hr, ?_⟩
  rw [ha, hsum, hk]

theorem sel_core1 : ∃ X, pickCols selX (index2uvec [1] true) = .ok X ∧ ∃ r, fitCoreSHatSerial X selY (fun _ _ => 1) 0 6 NoStop = .ok r ∧
    aicc X selY r.1.1 (r.1.2 0) = .ok (aiccFormula 6 2 (2 : ℕ)) := by
  refine sel_core (k' := 2) (by simp [index2uvec]) rfl (by norm_num) fun (b : Fin 2 → ℝ) hb => ?_
  have h0 : (1 : ℝ) * b 0 + ((1 : ℝ) * b 1 + 0) = 0 := hb 0 one_pos
  have h4 : (1 : ℝ) * b 0 + ((0 : ℝ) * b 1 + 0) = 0 := hb 4 one_pos
  norm_num at h0 h4
  funext j
  fin_cases j
  · exact h4
  · show b 1 = 0
    linarith

theorem sel_core2 : ∃ X, pickCols selX (index2uvec [2] true) = .ok X ∧ ∃ r, fitCoreSHatSerial X selY (fun _ _ => 1) 0 6 NoStop = .ok r ∧
    aicc X selY r.1.1 (r.1.2 0) = .ok (aiccFormula 6 2 (2 : ℕ)) := by
  refine sel_core (k' := 2) (by simp [index2uvec]) rfl (by norm_num) fun (b : Fin 2 → ℝ) hb => ?_
  have h0 : (1 : ℝ) * b 0 + ((1 : ℝ) * b 1 + 0) = 0 := hb 2 one_pos
  have h4 : (1 : ℝ) * b 0 + ((0 : ℝ) * b 1 + 0) = 0 := hb 4 one_pos
  norm_num at h0 h4
  funext j
  fin_cases j
  · exact h4
  · show b 1 = 0
    linarith

theorem sel_core12 : ∃ X, pickCols selX (index2uvec [1, 2] true) = .ok X ∧ ∃ r, fitCoreSHatSerial X selY (fun _ _ => 1) 0 6 NoStop = .ok r ∧
    aicc X selY r.1.1 (r.1.2 0) = .ok (aiccFormula 6 2 (3 : ℕ)) := by
  refine sel_core (k' := 3) (by simp [index2uvec]) rfl (by norm_num) fun (b : Fin 3 → ℝ) hb => ?_
  have h0 : (1 : ℝ) * b 0 + ((1 : ℝ) * b 1 + ((0 : ℝ) * b 2 + 0)) = 0 := hb 0 one_pos
  have h2 : (1 : ℝ) * b 0 + ((0 : ℝ) * b 1 + ((1 : ℝ) * b 2 + 0)) = 0 := hb 2 one_pos
  have h4 : (1 : ℝ) * b 0 + ((0 : ℝ) * b 1 + ((0 : ℝ) * b 2 + 0)) = 0 := hb 4 one_pos
  norm_num at h0 h2 h4
  funext j
  fin_cases j
  · exact h4
  · show b 1 = 0
    linarith
  · show b 2 = 0
    linarith

theorem sel_criterion {bw : ℝ} {vars : List ℕ} {v : ℝ}
    (h : ∃ X, pickCols selX (index2uvec vars true) = .ok X ∧ ∃ r, fitCoreSHatSerial X selY (fun _ _ => 1) 0 6 NoStop = .ok r ∧
      aicc X selY r.1.1 (r.1.2 0) = .ok v) :
    gwrVarsCriterion ⟨false, some (selCoords, selCoords)⟩ ⟨bw, false, .Boxcar⟩ selX selY true vars = .ok v := by
  have hW : weightRows ⟨false, some (selCoords, selCoords)⟩ ⟨dblMax, false, .Boxcar⟩ 6 6 = .ok fun _ _ => 1 := by
    refine (weights_fixed (by linarith [hundred_lt_dblMax])).2 fun i => ⟨i.isLt, rfl, ?_⟩
    funext l; exact (selPlane (by linarith [hundred_lt_dblMax]) i l).symm
  obtain ⟨X, hX, r, hr, ha⟩ := h
  unfold gwrVarsCriterion
  rw [hX]
  simp only [Res.bind, hW, show (fun _ : ℕ => false) = NoStop from rfl, hr]
  rw [ha]

theorem sel_crit1 (bw : ℝ) : gwrVarsCriterion ⟨false, some (selCoords, selCoords)⟩ ⟨bw, false, .Boxcar⟩ selX selY true [1] =
    .ok (aiccFormula 6 2 2) := sel_criterion sel_core1

theorem sel_crit2 (bw : ℝ) : gwrVarsCriterion ⟨false, some (selCoords, selCoords)⟩ ⟨bw, false, .Boxcar⟩ selX selY true [2] =
    .ok (aiccFormula 6 2 2) := sel_criterion sel_core2

theorem sel_crit12 (bw : ℝ) : gwrVarsCriterion ⟨false, some (selCoords, selCoords)⟩ ⟨bw, false, .Boxcar⟩ selX selY true [1, 2] =
    .ok (aiccFormula 6 2 3) := sel_criterion sel_core12

theorem aicc_drop : aiccFormula 6 2 2 - aiccFormula 6 2 3 = -30 := by
  simp only [aiccFormula]; norm_num

theorem pick_finish {x : Matrix (Fin n) (Fin k) ℝ} {cols A sel : List ℕ} {crit : List FModel} {X} (h : cols = A)
    (hX : pickCols x A = .ok X) : (pickCols x cols).bind (fun x' => Res.ok (⟨sel, crit, cols, x'⟩ : Selected n)) = .ok ⟨sel, crit, A, X⟩ := by
  subst h; rw [hX]; rfl

theorem ex_selectVars (srt : List FModel → List FModel) (hsrt : IsStdSort srt) {crit : List ℕ → Res ℝ} {v1 v2 : ℝ} (h1 : crit [1] = .ok v1)
    (h2 : crit [2] = .ok v1) (h12 : crit [1, 2] = .ok v2) (hlt : v1 < v2) :
    ∃ s, selectVars crit srt 0 selX true = .ok s ∧ s.vars.length = 1 := by
  set o : VOracle := fun _ vs => (true, match crit vs with
          | .ok v => v | _ => 0) with ho
  have hc : candidates 3 true = [1, 2] := by decide
  have o1 : ∀ q, o q [1] = (true, v1) := fun q => by simp only [ho, h1]
  have o2 : ∀ q, o q [2] = (true, v1) := fun q => by simp only [ho, h2]
  have o12 : ∀ q, o q [1, 2] = (true, v2) := fun q => by simp only [ho, h12]
  have hst : stages o [1, 2] 2 ⟨[], List.range 2, [], true⟩ =
      .ok ⟨[0, 1], [], [([0], v1), ([1], v1), ([0, 1], v2)], true⟩ := by
    simp [stages, stage, stageLoop, List.range_succ, convertIndex, indexMin, Res.bind, o1, o2, o12]
  have hp := (hsrt [([0], v1), ([1], v1)]).1
  have hp1 : srt [([0, 1], v2)] = [([0, 1], v2)] := List.perm_singleton.1 (hsrt [([0, 1], v2)]).1
  obtain ⟨p, q, hpq, hp2, hq2, hq1⟩ : ∃ p q : FModel, srt [([0], v1), ([1], v1)] = [p, q] ∧ p.2 = v1 ∧ q.2 = v1 ∧ q.1.length = 1 := by
    have hl := hp.length_eq
    match hm : srt [([0], v1), ([1], v1)], hl with
    | [p, q], _ =>
      rw [hm] at hp
      have g1 := hp.mem_iff.1 (show p ∈ [p, q] by simp)
      have g2 := hp.mem_iff.1 (show q ∈ [p, q] by simp)
      refine ⟨p, q, rfl, ?_, ?_, ?_⟩
      · rcases List.mem_cons.1 g1 with rfl | g1
        · rfl
        · rw [List.mem_singleton.1 g1]
      · rcases List.mem_cons.1 g2 with rfl | g2
        · rfl
        · rw [List.mem_singleton.1 g2]
      · rcases List.mem_cons.1 g2 with rfl | g2
        · rfl
        · rw [List.mem_singleton.1 g2]; rfl
  have hsort : sortSections srt 2 [([0], v1), ([1], v1), ([0, 1], v2)] = .ok [p, q, ([0, 1], v2)] := by
    simp [sortSections, Res.bind, hpq, hp1]
  have hsel : select 0 [p, q, ([0, 1], v2)] = .ok q := by
    have : ¬ v2 ≤ v1 := by linarith
    simp [select, selectLoop, hp2, hq2, this]
  have hf : forwardOptimize srt [1, 2] 0 o = .ok ⟨.ok (convertIndex [1, 2] q.1), [([0], v1), ([1], v1), ([0, 1], v2)],
      some [p, q, ([0, 1], v2)], true⟩ := by
    unfold forwardOptimize
    simp only [List.length_cons, List.length_nil]
    rw [hst]
    simp only [Res.bind, if_true]
    rw [hsort]
    simp only [hsel]
  have hlen : 0 < (convertIndex [1, 2] q.1).length := by simp [convertIndex, hq1]
  have hq : q = ([0], v1) ∨ q = ([1], v1) := by
    have h2 := hp.mem_iff.1 (show q ∈ srt [([0], v1), ([1], v1)] by rw [hpq]; simp)
    simpa using h2
  obtain ⟨X, hX⟩ : ∃ X, pickCols selX (index2uvec (convertIndex [1, 2] q.1) true) = .ok X := by
    unfold pickCols
    rw [dif_pos]
    · exact ⟨_, rfl⟩
    · rcases hq with rfl | rfl <;> simp [index2uvec, convertIndex]
  have hall : ∀ m ∈ [(([0], v1) : FModel), ([1], v1), ([0, 1], v2)], ∃ v, crit (convertIndex [1, 2] m.1) = .ok v := by
    intro m hm
    simp only [List.mem_cons, List.not_mem_nil, or_false] at hm
    rcases hm with rfl | rfl | rfl
    · exact ⟨_, h1⟩
    · exact ⟨_, h2⟩
    · exact ⟨_, h12⟩
  refine ⟨⟨convertIndex [1, 2] q.1, indepVarsCriterion [1, 2] [p, q, ([0, 1], v2)], index2uvec (convertIndex [1, 2] q.1) true, X⟩, ?_,
    by simp [convertIndex, hq1]⟩
  unfold selectVars
  rw [hc]
  change (forwardOptimize srt [1, 2] 0 o).bind _ = _
  rw [hf]
  change (if _ then _ else _) = _
  rw [if_pos hall]
  exact (pick_finish (if_pos hlen) hX).trans (by rw [if_pos hlen]; rfl)

/-- The run on that data with threshold 0 selects one of the two covariates. -/
theorem ex_select (srt : List FModel → List FModel) (hsrt : IsStdSort srt) (bw : ℝ) :
    ∃ s, gwrSelectVars srt 0 ⟨false, some (selCoords, selCoords)⟩ ⟨bw, false, .Boxcar⟩ selX selY true = .ok s ∧ s.vars.length = 1 :=
  ex_selectVars srt hsrt (sel_crit1 bw) (sel_crit2 bw) (sel_crit12 bw) (by linarith [aicc_drop])

theorem sel_determined {k' : ℕ} {X : Matrix (Fin 6) (Fin k') ℝ} {v : ℕ} (hv : v = 1 ∨ v = 2) (hX : Columns selX [0, v] X) :
    Determined X fun _ => 1 := by
  obtain ⟨hl, hc⟩ := hX
  subst hl
  obtain ⟨c0, e0, h0⟩ := hc ⟨0, by simp⟩
  obtain ⟨c1, e1, h1⟩ := hc ⟨1, by simp⟩
  have hc0 : c0 = 0 := Fin.ext (Option.some.inj e0).symm
  have hc1 : c1.val = v := (Option.some.inj e1).symm
  intro (b : Fin 2 → ℝ) hb
  have key : ∀ l, selX l 0 * b 0 + (selX l c1 * b 1 + 0) = 0 := by
    intro l
    have : X l ⟨0, by simp⟩ * b 0 + (X l ⟨1, by simp⟩ * b 1 + 0) = 0 := hb l one_pos
    rwa [h0, h1, hc0] at this
  have hd : b 0 = 0 ∧ b 1 = 0 := by
    rcases hv with rfl | rfl
    · have : c1 = 1 := Fin.ext hc1
      subst this
      have k0 : (1 : ℝ) * b 0 + ((1 : ℝ) * b 1 + 0) = 0 := key 0
      have k4 : (1 : ℝ) * b 0 + ((0 : ℝ) * b 1 + 0) = 0 := key 4
      constructor <;> linarith
    · have : c1 = 2 := Fin.ext hc1
      subst this
      have k0 : (1 : ℝ) * b 0 + ((1 : ℝ) * b 1 + 0) = 0 := key 2
      have k4 : (1 : ℝ) * b 0 + ((0 : ℝ) * b 1 + 0) = 0 := key 4
      constructor <;> linarith
  funext j
  fin_cases j
  · exact hd.1
  · exact hd.2

/-- On that data a whole fit returns, and then a second fit of the same object does not. -/
theorem ex_select_fit (srt : List FModel → List FModel) (hsrt : IsStdSort srt) :
    ∃ s a, gwrVarFit srt 0 ⟨false, none⟩ ⟨11, false, .Boxcar⟩ selCoords selX selY true true true = .ok ⟨s, a⟩ ∧ s.vars.length = 1 ∧
      ∀ s', gwrVarFit srt 0 ⟨false, none⟩ ⟨11, false, .Boxcar⟩ selCoords s.x selY true true true ≠ .ok s' := by
  obtain ⟨s, hs, h1⟩ := ex_select srt hsrt 11
  obtain ⟨-, -, -, -, -, -, -, -, -, hv, hc⟩ := C102_selected_variables srt hsrt 0 .Boxcar 11 selCoords rfl selX selY true s hs
  obtain ⟨v, e⟩ := List.length_eq_one_iff.1 h1
  have hdet : Determined s.x fun _ => 1 := by
    have := hv v (by rw [e]; simp)
    refine sel_determined (v := v) (by simp at this; omega) ?_
    rw [e] at hc; exact hc
  obtain ⟨a, ha⟩ := (C98_fit_succeeds_iff none .Boxcar 11 (by norm_num) selCoords (by norm_num) s.x selY true true).2
    ⟨rfl, rfl, fun i => by simp only [selPlane (show (10 : ℝ) < 11 by norm_num)]; exact hdet⟩
  have hb : bindLocations ⟨false, none⟩ selCoords selCoords = .ok ⟨false, some (selCoords, selCoords)⟩ :=
    bindLocations_eq_ok.2 ⟨rfl, rfl, rfl⟩
  refine ⟨s, a, ?_, h1, fun s' h' => ?_⟩
  · unfold gwrVarFit
    rw [hb]
    simp only [Res.bind, hs]
    rw [show (fun _ : ℕ => false) = NoStop from rfl, ha]
  · unfold gwrVarFit at h'
    rw [hb] at h'
    obtain ⟨d', hd, h3⟩ := Res.bind_eq_ok'.1 h'
    cases Res.ok.inj hd
    obtain ⟨s2, h2, -⟩ := Res.bind_eq_ok'.1 h3
    exact C102_second_fit_undefined srt hsrt 0 _ ⟨11, false, .Boxcar⟩ _ selX selY true s hs h1 s2 h2

example : ∃ (srt : List FModel → List FModel) (s : Selected 6) (a : FitAcc 6 s.cols.length), IsStdSort srt ∧
    gwrVarFit srt 0 ⟨false, none⟩ ⟨11, false, .Boxcar⟩ selCoords selX selY true true true = .ok ⟨s, a⟩ := by
  obtain ⟨srt, hs⟩ := exists_stdSort
  obtain ⟨s, a, h, -⟩ := ex_select_fit srt hs
  exact ⟨srt, s, a, hs, h⟩

end Verif.Props

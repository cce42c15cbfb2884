import Verif.Props.GWDARun
import Verif.Props.GWREquivariance
import Verif.Props.Reordering
import Mathlib.Data.List.NodupEquivFin

/-! # C144: the order of the observations in discriminant analysis -/

namespace Verif.Props
open Verif Verif.Model Verif.Spec Matrix

variable {n k : ℕ} {α : Type} [DecidableEq α]

/-- The weights of the reordered observations. -/
def permWt (σ : Equiv.Perm (Fin n)) (wt : Fin n → Fin n → ℝ) : Fin n → Fin n → ℝ := fun l j => wt (σ l) (σ j)

theorem findSame_perm (σ : Equiv.Perm (Fin n)) (y : Fin n → α) (s : α) (f : Fin n → ℝ) :
    ((findSame (y ∘ σ) s).map fun l => f (σ l)).sum = ((findSame y s).map f).sum := by
  rw [findSame_sum, findSame_sum, Finset.sum_filter, Finset.sum_filter]
  exact Equiv.sum_comp σ fun l => if y l = s then f l else 0

theorem classWeight_perm (σ : Equiv.Perm (Fin n)) (y : Fin n → α) (s : α) (wt : Fin n → Fin n → ℝ) (j : Fin n) :
    classWeight (permWt σ wt) (findSame (y ∘ σ) s) j = classWeight wt (findSame y s) (σ j) :=
  findSame_perm σ y s fun l => wt l (σ j)

theorem wMean_perm (σ : Equiv.Perm (Fin n)) (x : Matrix (Fin n) (Fin k) ℝ) (y : Fin n → α) (s : α) (wt : Fin n → Fin n → ℝ) (j : Fin n) :
    wMean (permRows σ x) (permWt σ wt) (findSame (y ∘ σ) s) j = wMean x wt (findSame y s) (σ j) := by
  unfold wMean
  rw [classWeight_perm]
  congr 2
  funext c
  exact findSame_perm σ y s fun l => wt l (σ j) / classWeight wt (findSame y s) (σ j) * x l c

theorem covwtmat_perm (σ : Equiv.Perm (Fin n)) (x : Matrix (Fin n) (Fin k) ℝ) (y : Fin n → α) (s : α) (w : Fin n → ℝ) :
    covwtmat (permRows σ x) (findSame (y ∘ σ) s) (fun l => w (σ l)) = covwtmat x (findSame y s) w := by
  unfold covwtmat
  have h1 := findSame_perm σ y s w
  have h2 := findSame_perm σ y s fun l => w l * w l
  have h3 : ∀ c, ((findSame (y ∘ σ) s).map fun l => permRows σ x l c * w (σ l)).sum = ((findSame y s).map fun l => x l c * w l).sum :=
    fun c => findSame_perm σ y s fun l => x l c * w l
  simp only [h1, h2, h3]
  have h4 : ∀ a b, ((findSame (y ∘ σ) s).map fun l => w (σ l) *
      ((permRows σ x l a - ((findSame y s).map fun l => x l a * w l).sum / ((findSame y s).map w).sum) *
       (permRows σ x l b - ((findSame y s).map fun l => x l b * w l).sum / ((findSame y s).map w).sum))).sum =
      ((findSame y s).map fun l => w l * ((x l a - ((findSame y s).map fun l => x l a * w l).sum / ((findSame y s).map w).sum) *
       (x l b - ((findSame y s).map fun l => x l b * w l).sum / ((findSame y s).map w).sum))).sum :=
    fun a b => findSame_perm σ y s fun l => w l * ((x l a - ((findSame y s).map fun l => x l a * w l).sum / ((findSame y s).map w).sum) *
       (x l b - ((findSame y s).map fun l => x l b * w l).sum / ((findSame y s).map w).sum))
  simp only [h4]

theorem wVarCov_perm (σ : Equiv.Perm (Fin n)) (x : Matrix (Fin n) (Fin k) ℝ) (y : Fin n → α) (s : α) (wt : Fin n → Fin n → ℝ) (j : Fin n) :
    wVarCov (permRows σ x) (permWt σ wt) (findSame (y ∘ σ) s) j = wVarCov x wt (findSame y s) (σ j) := by
  unfold wVarCov
  rw [classWeight_perm, ← covwtmat_perm σ x y s fun l => wt l (σ j) / classWeight wt (findSame y s) (σ j)]
  rfl

theorem accu_perm (σ : Equiv.Perm (Fin n)) (wt : Fin n → Fin n → ℝ) : accu (permWt σ wt) = accu wt := by
  unfold accu permWt
  rw [← Equiv.sum_comp σ fun j => ∑ l, wt l j]
  exact Finset.sum_congr rfl fun j _ => Equiv.sum_comp σ fun l => wt l (σ j)

theorem ones_permWt (σ : Equiv.Perm (Fin n)) : permWt σ (wtOnes n) = wtOnes n := rfl

theorem ite_permWt (σ : Equiv.Perm (Fin n)) (c : Bool) (wt : Fin n → Fin n → ℝ) :
    (if c then permWt σ wt else wtOnes n) = permWt σ (if c then wt else wtOnes n) := by cases c <;> rfl

theorem wPrior_perm (σ : Equiv.Perm (Fin n)) (y : Fin n → α) (s : α) (wt : Fin n → Fin n → ℝ) (v : ℝ) (j : Fin n) :
    wPrior (permWt σ wt) (findSame (y ∘ σ) s) v j = wPrior wt (findSame y s) v (σ j) := by
  unfold wPrior; rw [classWeight_perm]

theorem ytable_perm (σ : Equiv.Perm (Fin n)) (y : Fin n → α) (s : α) : ytable (List.ofFn (y ∘ σ)) s = ytable (List.ofFn y) s := by
  rw [ytable_card, ytable_card]
  exact Fintype.card_congr (σ.subtypeEquiv fun l => Iff.rfl)

/-- The classes of reordered data are the same, listed in some other order. -/
theorem levels_perm (σ : Equiv.Perm (Fin n)) (y : Fin n → α) :
    ∃ τ : Fin (gwdaLevels (List.ofFn (y ∘ σ))).length ≃ Fin (gwdaLevels (List.ofFn y)).length,
      ∀ a, (gwdaLevels (List.ofFn y)).get (τ a) = (gwdaLevels (List.ofFn (y ∘ σ))).get a := by
  obtain ⟨n1, m1, -⟩ := C45_levels (List.ofFn y)
  obtain ⟨n2, m2, -⟩ := C45_levels (List.ofFn (y ∘ σ))
  have hm : ∀ s, s ∈ gwdaLevels (List.ofFn (y ∘ σ)) ↔ s ∈ gwdaLevels (List.ofFn y) := by
    intro s
    rw [m1, m2, List.mem_ofFn, List.mem_ofFn]
    exact ⟨fun ⟨i, hi⟩ => ⟨σ i, hi⟩, fun ⟨i, hi⟩ => ⟨σ.symm i, by simpa using hi⟩⟩
  refine ⟨(n2.getEquiv _).trans ((Equiv.subtypeEquivRight hm).trans (n1.getEquiv _).symm), fun a => ?_⟩
  have h := (n1.getEquiv _).apply_symm_apply ((Equiv.subtypeEquivRight hm) (n2.getEquiv _ a))
  exact congrArg Subtype.val h

theorem tabulate_perm {β : Type} {m m' : ℕ} (τ : Fin m' ≃ Fin m) {f : Fin m → Res β} {f' : Fin m' → Res β} (hf : ∀ a, f' a = f (τ a)) {v : Fin m → β}
    (h : Res.tabulate m f = .ok v) : Res.tabulate m' f' = .ok (v ∘ τ) := by
  rw [Res.tabulate_eq_ok] at h ⊢
  intro a
  rw [hf]
  exact h (τ a)

theorem pooledCov_perm (σ : Equiv.Perm (Fin n)) (e : GwdaEnv k) (x : Matrix (Fin n) (Fin k) ℝ) (y : Fin n → α) (lev lev' : List α)
    (τ : Fin lev'.length ≃ Fin lev.length) (hτ : ∀ a, lev.get (τ a) = lev'.get a) (wt : Fin n → Fin n → ℝ) (j : Fin n) {C}
    (h : pooledCov e x y lev wt (σ j) = .ok C) : pooledCov e (permRows σ x) (y ∘ σ) lev' (permWt σ wt) j = .ok C := by
  unfold pooledCov at h ⊢
  obtain ⟨sig, hs, h⟩ := Res.bind_eq_ok'.1 h
  rw [ite_permWt]
  rw [tabulate_perm τ (fun a => by rw [wVarCov_perm, hτ]) hs]
  simp only [Res.bind, ytable_perm]
  have h1 : ∀ g : Fin lev.length → ℝ, ∑ i : Fin lev'.length, (ytable (List.ofFn y) (lev'.get i) : ℝ) * g (τ i) =
      ∑ i : Fin lev.length, (ytable (List.ofFn y) (lev.get i) : ℝ) * g i := by
    intro g
    rw [← Equiv.sum_comp τ]
    exact Finset.sum_congr rfl fun i _ => by rw [hτ]
  have h0 := h1 fun _ => 1
  simp only [mul_one] at h0
  have h2 : ∀ a b, ∑ i : Fin lev'.length, (ytable (List.ofFn y) (lev'.get i) : ℝ) * (sig ∘ τ) i a b =
      ∑ i : Fin lev.length, (ytable (List.ofFn y) (lev.get i) : ℝ) * sig i a b := fun a b => h1 fun i => sig i a b
  rw [h0]
  simp only [h2]
  exact h

theorem wldaRow_perm (σ : Equiv.Perm (Fin n)) (e : GwdaEnv k) (x : Matrix (Fin n) (Fin k) ℝ) (y : Fin n → α) (lev lev' : List α)
    (τ : Fin lev'.length ≃ Fin lev.length) (hτ : ∀ a, lev.get (τ a) = lev'.get a) (wt : Fin n → Fin n → ℝ) (j : Fin n) {r}
    (h : wldaRow e x y lev wt (σ j) = .ok r) : wldaRow e (permRows σ x) (y ∘ σ) lev' (permWt σ wt) j = .ok (r ∘ τ) := by
  have hl : lev'.length = lev.length := by simpa using Fintype.card_congr τ
  unfold wldaRow at h ⊢
  obtain ⟨C, hC, h⟩ := Res.bind_eq_ok'.1 h
  rw [pooledCov_perm σ e x y lev lev' τ hτ wt j hC]
  simp only [Res.bind]
  refine tabulate_perm τ (fun a => ?_) h
  rw [ite_permWt, ite_permWt, wMean_perm, wPrior_perm, accu_perm, hτ, hl]
  rfl

theorem wqdaRow_perm (σ : Equiv.Perm (Fin n)) (e : GwdaEnv k) (x : Matrix (Fin n) (Fin k) ℝ) (y : Fin n → α) (lev lev' : List α)
    (τ : Fin lev'.length ≃ Fin lev.length) (hτ : ∀ a, lev.get (τ a) = lev'.get a) (wt : Fin n → Fin n → ℝ) (j : Fin n) {r}
    (h : wqdaRow e x y lev wt (σ j) = .ok r) : wqdaRow e (permRows σ x) (y ∘ σ) lev' (permWt σ wt) j = .ok (r ∘ τ) := by
  have hl : lev'.length = lev.length := by simpa using Fintype.card_congr τ
  unfold wqdaRow at h ⊢
  by_cases hc : e.hasMean = false ∨ e.hasCov = false ∨ e.hasPrior = false
  · rw [if_pos hc] at h; cases h
  rw [if_neg hc] at h ⊢
  refine tabulate_perm τ (fun a => ?_) h
  rw [wMean_perm, wVarCov_perm, wPrior_perm, accu_perm, hτ, hl]
  rfl

theorem wtUsed_perm (σ : Equiv.Perm (Fin n)) (st : GwdaState) (W : Fin n → Fin n → ℝ) :
    (if st.parallel then gwdaWtOmp (permW σ W) else gwdaWtSerial st.prSet (permW σ W)) =
      permWt σ (if st.parallel then gwdaWtOmp W else gwdaWtSerial st.prSet W) := by
  cases st.parallel
  · simp only [Bool.false_eq_true, if_false]
    funext l j
    simp only [gwdaWtSerial, permWt, σ.injective.eq_iff]
    rfl
  · rfl

theorem gwdaRun_perm (σ : Equiv.Perm (Fin n)) (e : GwdaEnv k) (st st' : GwdaState) (x : Matrix (Fin n) (Fin k) ℝ) (y : Fin n → α)
    (W : Fin n → Fin n → ℝ) {rows} (h : gwdaRun e st x y W = .ok (st', rows))
    (τ : Fin (gwdaLevels (List.ofFn (y ∘ σ))).length ≃ Fin (gwdaLevels (List.ofFn y)).length)
    (hτ : ∀ a, (gwdaLevels (List.ofFn y)).get (τ a) = (gwdaLevels (List.ofFn (y ∘ σ))).get a) :
    gwdaRun e st (permRows σ x) (y ∘ σ) (permW σ W) = .ok (st', fun i => rows (σ i) ∘ τ) := by
  unfold gwdaRun at h ⊢
  by_cases hk : k < 2
  · rw [if_pos hk] at h; cases h
  rw [if_neg hk] at h ⊢
  simp only at h ⊢
  obtain ⟨r, hr, h⟩ := Res.bind_eq_ok'.1 h
  simp only [Res.ok.injEq, Prod.mk.injEq] at h
  obtain ⟨rfl, rfl⟩ := h
  rw [Res.tabulate_eq_ok] at hr
  rw [wtUsed_perm, (Res.tabulate_eq_ok (n := n) (v := fun i => r (σ i) ∘ τ)).2]
  · rfl
  · intro i
    have hi := hr (σ i)
    by_cases hq : st.isWqda
    · rw [if_pos hq] at hi ⊢
      exact wqdaRow_perm σ e x y _ _ τ hτ _ i hi
    · rw [if_neg hq] at hi ⊢
      exact wldaRow_perm σ e x y _ _ τ hτ _ i hi

omit [DecidableEq α] in
theorem group_perm {lev lev' : List α} (τ : Fin lev'.length ≃ Fin lev.length) (hτ : ∀ a, lev.get (τ a) = lev'.get a) (r : Fin lev.length → ℝ)
    (hr : Function.Injective r) : gwdaGroup lev' (r ∘ τ) = gwdaGroup lev r := by
  unfold gwdaGroup
  cases h : (List.finRange lev.length).argmin r with
  | none =>
    rw [List.argmin_eq_none] at h
    have hl : lev'.length = lev.length := by simpa using Fintype.card_congr τ
    have h0 : lev.length = 0 := by simpa using congrArg List.length h
    have : (List.finRange lev'.length).argmin (r ∘ τ) = none := by
      rw [List.argmin_eq_none, List.finRange_eq_nil_iff]; omega
    rw [this]
  | some a =>
    cases h' : (List.finRange lev'.length).argmin (r ∘ τ) with
    | none =>
      rw [List.argmin_eq_none] at h'
      exact absurd (List.mem_finRange (τ.symm a)) (by rw [h']; simp)
    | some b =>
      have h1 := List.le_of_mem_argmin (List.mem_finRange (τ b)) h
      have h2 := List.le_of_mem_argmin (List.mem_finRange (τ.symm a)) h'
      simp only [Function.comp, Equiv.apply_symm_apply] at h2
      have hb : τ b = a := hr (le_antisymm h2 h1)
      simp only [← hτ, hb]

theorem publish_exists (y : Fin n → α) (hn : 0 < n) (h2 : 2 ≤ (gwdaLevels (List.ofFn y)).length) (rows) :
    ∃ o, gwdaPublish y (gwdaLevels (List.ofFn y)) rows = .ok o := by
  choose g hg using fun j : Fin n => C45_group y (rows j) hn
  obtain ⟨cr, hcr, -⟩ := C45_correct_rate y (fun j => (gwdaLevels (List.ofFn y)).get (g j)) hn
  unfold gwdaPublish
  rw [(Res.tabulate_eq_ok (n := n)).2 fun j => (hg j).1]
  simp only [Res.bind, hcr]
  rw [if_neg (by omega), shannon_const (by omega) _ (by
    have : (2 : ℝ) ≤ ((gwdaLevels (List.ofFn y)).length : ℝ) := by exact_mod_cast h2
    exact one_div_pos.2 (by linarith))]
  exact ⟨_, rfl⟩

theorem publish_perm (σ : Equiv.Perm (Fin n)) (y : Fin n → α) {rows o} (h : gwdaPublish y (gwdaLevels (List.ofFn y)) rows = .ok o)
    (τ : Fin (gwdaLevels (List.ofFn (y ∘ σ))).length ≃ Fin (gwdaLevels (List.ofFn y)).length) :
    ∃ o', gwdaPublish (y ∘ σ) (gwdaLevels (List.ofFn (y ∘ σ))) (fun i => rows (σ i) ∘ τ) = .ok o' := by
  obtain ⟨h2, -, hg, hc, -⟩ := publish_ok h
  have hl : (gwdaLevels (List.ofFn (y ∘ σ))).length = (gwdaLevels (List.ofFn y)).length := by simpa using Fintype.card_congr τ
  refine publish_exists _ ?_ (by omega) _
  by_contra h0
  have : n = 0 := by omega
  subst this
  simp [gwdaLevels] at h2

/-- C144 (scores and classes): when the observations are listed in another order, a run leaves the object in the same state, the score of every
observation for every class (the class identified by its label, not by its column) is the same, an observation whose scores differ from each other is
named the same class, and if that holds for all of them the correct rate is the same. -/
theorem C144_classes (e : GwdaEnv k) (st st' : GwdaState) (p : Option (DynMat × DynMat)) (b : BandwidthWeight) (coords coords' : DynMat)
    (σ : Equiv.Perm (Fin n)) (hp : PermCoords n σ coords coords') (x : Matrix (Fin n) (Fin k) ℝ) (y : Fin n → α) (o)
    (h : gwdaFull e st ⟨false, p⟩ b coords x y = .ok (st', o)) :
    ∃ o', gwdaFull e st ⟨false, p⟩ b coords' (fun i => x (σ i)) (fun i => y (σ i)) = .ok (st', o') ∧
      (∀ i c c', (gwdaLevels (List.ofFn y)).get c = (gwdaLevels (List.ofFn fun i => y (σ i))).get c' → o'.scores i c' = o.scores (σ i) c) ∧
      (∀ i, Function.Injective (o.scores (σ i)) → o'.group i = o.group (σ i)) ∧
      ((∀ i, Function.Injective (o.scores i)) → o'.correctRate = o.correctRate) := by
  obtain ⟨τ, hτ⟩ := levels_perm σ y
  obtain ⟨W, hW, hrun, hpub⟩ := full_ok h
  have hrun' := gwdaRun_perm σ e st st' x y W hrun τ hτ
  obtain ⟨o', hpub'⟩ := publish_perm σ y hpub τ
  have hk : ¬ k < 2 := by
    intro hk
    unfold gwdaRun at hrun
    rw [if_pos hk] at hrun; cases hrun
  have hcol : coords.nCols = 2 := by
    unfold gwdaFull at h
    obtain ⟨d', hd, -⟩ := Res.bind_eq_ok'.1 h
    exact (bindLocations_eq_ok.1 hd).1
  obtain ⟨-, hs, hg, hc, -⟩ := publish_ok hpub
  obtain ⟨-, hs', hg', hc', -⟩ := publish_ok hpub'
  have hgrp : ∀ i, Function.Injective (o.scores (σ i)) → o'.group i = o.group (σ i) := by
    intro i hi
    have h1 := hg' i
    rw [group_perm τ hτ _ hi, hg (σ i)] at h1
    exact (Res.ok.inj h1).symm
  refine ⟨o', ?_, fun i c c' hcc => ?_, hgrp, fun hall => ?_⟩
  · unfold gwdaFull
    refine Res.bind_eq_ok'.2 ⟨_, bindLocations_eq_ok.2 ⟨hp.2.2.1.trans hcol, hp.2.2.1.trans hcol, rfl⟩, ?_⟩
    rw [if_neg hk]
    exact Res.bind_eq_ok'.2 ⟨_, perm_weights hp hW, Res.bind_eq_ok'.2 ⟨_, hrun', Res.bind_eq_ok'.2 ⟨o', hpub', rfl⟩⟩⟩
  · rw [hs']
    have hnd := (C45_levels (List.ofFn y)).1
    have : τ c' = c := hnd.injective_get ((hτ c').trans hcc.symm)
    simp only [Function.comp, this]
  · have hge : o'.group = o.group ∘ σ := funext fun i => hgrp i (hall _)
    have : correctRate (y ∘ σ) o'.group = correctRate y o.group := by
      unfold correctRate
      congr 2
      rw [hge]
      exact Finset.card_equiv σ (by simp)
    rw [hc', hc] at this
    exact Res.ok.inj this

/-- A run to which C144 applies: the data set of C82 on a line, with a boxcar kernel that gives every observation the weight 1. -/
theorem ex_daLine (nrm sing) (hN : ∀ A, IsLargestSV A (nrm A)) (st : GwdaState) (hst : st.isWqda = false) (t : ℝ) : ∃ st' o,
    gwdaFull (daEnv nrm sing) st ⟨false, none⟩ ⟨(4 : ℕ), false, .Boxcar⟩ (linePoints 4) (daX 1 t) daY = .ok (st', o) ∧
    ∀ j i, o.scores j i = 1 / 2 * daDist (st.parallel || st.prSet) t j i.val + Real.log 8 := by
  have hrun := da_run nrm sing hN 1 t one_pos st hst
  have hlen : (gwdaLevels (List.ofFn daY)).length = 2 := by rw [da_levels]; rfl
  obtain ⟨o, ho⟩ := publish_exists daY (by norm_num) hlen.ge
    (fun j i => Real.log (1 ^ 2) + 1 / 2 * daDist (st.parallel || st.prSet) t j i.val + Real.log 8)
  refine ⟨{ st with prSet := true }, o, ?_, fun j i => ?_⟩
  · unfold gwdaFull
    refine Res.bind_eq_ok'.2 ⟨_, bindLocations_eq_ok.2 ⟨rfl, rfl, rfl⟩, ?_⟩
    rw [if_neg (by norm_num)]
    exact Res.bind_eq_ok'.2 ⟨_, linePoints_rows (n := 4) (by norm_num), Res.bind_eq_ok'.2 ⟨_, hrun, Res.bind_eq_ok'.2 ⟨o, ho, rfl⟩⟩⟩
  · rw [(publish_ok ho).2.1]
    simp

theorem probs_swap (lev lev' : List Bool) (h : lev = [false, true]) (h' : lev' = [true, false]) (r : Fin lev.length → ℝ) (r' : Fin lev'.length → ℝ)
    (hpos : ∀ c, 0 < r c) (hm : ∀ c c', lev.get c = lev'.get c' → r' c' = r c) :
    ∃ q q' c c', gwdaProbs r = .ok q ∧ gwdaProbs r' = .ok q' ∧ lev.get c = lev'.get c' ∧ q' c' ≠ q c := by
  subst h h'
  have h0 : r' (1 : Fin 2) = r (0 : Fin 2) := hm (0 : Fin 2) (1 : Fin 2) rfl
  have h1 : r' (0 : Fin 2) = r (1 : Fin 2) := hm (1 : Fin 2) (0 : Fin 2) rfl
  have p0 : 0 < r (0 : Fin 2) := hpos (0 : Fin 2)
  have p1 : 0 < r (1 : Fin 2) := hpos (1 : Fin 2)
  have e0 : r (0 : Fin 2) < Real.exp (r (0 : Fin 2)) := by linarith [Real.add_one_le_exp (r (0 : Fin 2))]
  have e1 : r (1 : Fin 2) < Real.exp (r (1 : Fin 2)) := by linarith [Real.add_one_le_exp (r (1 : Fin 2))]
  have key : ∀ u : Fin 2 → ℝ, (0 < u 0) → (0 < u 1) → gwdaProbs u = .ok fun i => (if i.val < 2 - 1 then Real.exp (u i) else u i) / (Real.exp (u 0) + u 1) := by
    intro u u0 u1
    have hs : ∑ i : Fin 2, (if i.val < 2 - 1 then Real.exp (u i) else u i) = Real.exp (u 0) + u 1 := by
      simp [Fin.sum_univ_two]
    have hp : 0 < Real.exp (u 0) + u 1 := by linarith [Real.exp_pos (u 0)]
    unfold gwdaProbs
    simp only
    rw [hs, if_neg hp.ne']
  refine ⟨_, _, (0 : Fin 2), (1 : Fin 2), key r p0 p1, key r' (by rw [h1]; exact p1) (by rw [h0]; exact p0), rfl, ?_⟩
  have : r (0 : Fin 2) / (Real.exp (r (1 : Fin 2)) + r (0 : Fin 2)) ≠ Real.exp (r (0 : Fin 2)) / (Real.exp (r (0 : Fin 2)) + r (1 : Fin 2)) := by
    rw [Ne, div_eq_div_iff (by linarith) (by linarith)]
    intro hh
    nlinarith [mul_lt_mul'' e0 e1 p0.le p1.le]
  simpa [h0, h1] using this

/-- C144 fails for the published probabilities: listing the same observations backwards can change the probability of a class at an observation, because the
class that appears last is the one whose score is not exponentiated. -/
theorem C144_probabilities_fails (nrm sing) (hN : ∀ A, IsLargestSV A (nrm A)) :
    ∃ (e : GwdaEnv 2) (st : GwdaState) (b : BandwidthWeight) (coords coords' : DynMat) (x : Matrix (Fin 4) (Fin 2) ℝ) (y : Fin 4 → Bool),
      e.nrm = nrm ∧ e.solveSingular = sing ∧ PermCoords 4 Fin.revPerm coords coords' ∧ ∃ st' o o',
      gwdaFull e st ⟨false, none⟩ b coords x y = .ok (st', o) ∧
      gwdaFull e st ⟨false, none⟩ b coords' (fun i => x (Fin.rev i)) (fun i => y (Fin.rev i)) = .ok (st', o') ∧
      ∃ q q' c c', o.probs 0 = .ok q ∧ o'.probs (Fin.rev 0) = .ok q' ∧
        (gwdaLevels (List.ofFn y)).get c = (gwdaLevels (List.ofFn fun i => y (Fin.rev i))).get c' ∧ q' c' ≠ q c := by
  obtain ⟨st', o, h, hsc⟩ := ex_daLine nrm sing hN ⟨false, false, false⟩ rfl 20
  have hperm := reorderedCoords_perm (n := 4) Fin.revPerm (c := linePoints 4) rfl
  obtain ⟨o', h', hs', -⟩ := C144_classes _ _ _ _ _ _ _ _ hperm _ _ _ h
  refine ⟨_, _, _, _, _, _, _, rfl, rfl, hperm, st', o, o', h, h', ?_⟩
  obtain ⟨-, -, -, hpub⟩ := full_ok h
  obtain ⟨-, -, -, hpub'⟩ := full_ok h'
  rw [(publish_ok hpub).2.2.2.2.1, (publish_ok hpub').2.2.2.2.1]
  refine probs_swap _ _ da_levels (by simp [List.ofFn_succ, daY, gwdaLevels]) _ _ (fun c => ?_) fun c c' hcc => hs' (Fin.rev 0) c c' hcc
  rw [hsc]
  have h8 : 0 < Real.log 8 := Real.log_pos (by norm_num)
  have : 0 ≤ daDist (false || false) 20 0 c.val := by
    unfold daDist
    split_ifs <;> norm_num
  linarith

/-- C144: the data set of C82 with two classes and distinct scores, listed backwards. -/
example (nrm sing) (hN : ∀ A, IsLargestSV A (nrm A)) : ∃ st' o o',
    gwdaFull (daEnv nrm sing) ⟨false, false, false⟩ ⟨false, none⟩ ⟨(4 : ℕ), false, .Boxcar⟩ (linePoints 4) (daX 1 20) daY = .ok (st', o) ∧
    gwdaFull (daEnv nrm sing) ⟨false, false, false⟩ ⟨false, none⟩ ⟨(4 : ℕ), false, .Boxcar⟩ (reorderedCoords (Fin.revPerm : Equiv.Perm (Fin 4)) (linePoints 4))
      (fun i => daX 1 20 (Fin.revPerm i)) (fun i => daY (Fin.revPerm i)) = .ok (st', o') ∧
    (∀ i, o'.group i = o.group (Fin.revPerm i)) ∧ o'.correctRate = o.correctRate := by
  obtain ⟨st', o, h, hsc⟩ := ex_daLine nrm sing hN ⟨false, false, false⟩ rfl 20
  obtain ⟨o', h', -, hg, hc⟩ := C144_classes _ _ _ _ _ _ _ _ (reorderedCoords_perm (n := 4) Fin.revPerm (c := linePoints 4) rfl) _ _ _ h
  have hlen : (gwdaLevels (List.ofFn daY)).length = 2 := by rw [da_levels]; rfl
  have hinj : ∀ i, Function.Injective (o.scores i) := by
    intro i a c hac
    rw [hsc, hsc] at hac
    have hd : daDist (false || false) 20 i a.val = daDist (false || false) 20 i c.val := by linarith
    have key : daDist false 20 i 0 ≠ daDist false 20 i 1 := by
      fin_cases i <;> norm_num [daDist]
    have ha : a.val < 2 := a.isLt.trans_eq hlen
    have hc : c.val < 2 := c.isLt.trans_eq hlen
    apply Fin.ext
    rcases (by omega : a.val = 0 ∨ a.val = 1) with h1 | h1 <;> rcases (by omega : c.val = 0 ∨ c.val = 1) with h2 | h2 <;> rw [h1, h2] at hd ⊢
    · exact absurd hd key
    · exact absurd hd.symm key
  exact ⟨st', o, o', h, h', fun i => hg i (hinj _), hc hinj⟩

/-- C144, probabilities: a matrix norm as required exists. -/
example : ∃ nrm, ∃ (e : GwdaEnv 2) (st : GwdaState) (b : BandwidthWeight) (coords : DynMat) (x : Matrix (Fin 4) (Fin 2) ℝ) (y : Fin 4 → Bool),
    e.nrm = nrm ∧ ∃ st' o, gwdaFull e st ⟨false, none⟩ b coords x y = .ok (st', o) := by
  obtain ⟨nrm, hN⟩ := ex_norm
  obtain ⟨e, st, b, coords, -, x, y, h1, -, -, st', o, -, h, -⟩ := C144_probabilities_fails nrm (fun _ _ => .nonfinite) hN
  exact ⟨nrm, e, st, b, coords, x, y, h1, st', o, h⟩

end Verif.Props

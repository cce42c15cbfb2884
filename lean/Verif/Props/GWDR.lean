import Verif.Model.GWDR
import Verif.Props.GWRParallel

/-! # C54, C60, C61: density regression -/

namespace Verif.Props
open Verif Verif.Model Verif.Spec Matrix

variable {n k d T : ℕ}

theorem dimWeight_prod (ws : List (Fin n → ℝ)) (l : Fin n) : dimWeight ws l = (ws.map fun w => w l).prod := by
  have : ∀ (ws : List (Fin n → ℝ)) (w0 : Fin n → ℝ),
      (ws.foldl (fun w wm => fun l => w l * wm l) w0) l = w0 l * (ws.map fun w => w l).prod := by
    intro ws
    induction ws with
    | nil => intro w0; simp
    | cons w ws ih => intro w0; rw [List.foldl_cons, ih]; simp [mul_assoc]
  unfold dimWeight
  rw [this]; simp

/-- **C54.** The weight of an observation is the product of its weights in the dimensions: it is between 0 and 1 if they are, it is 0
exactly if one of them is, and the order of the dimensions does not matter. -/
theorem C54_product_weights (ws : List (Fin n → ℝ)) (hws : ∀ w ∈ ws, ∀ l, 0 ≤ w l ∧ w l ≤ 1) (l : Fin n) :
    dimWeight ws l = (ws.map fun w => w l).prod ∧ 0 ≤ dimWeight ws l ∧ dimWeight ws l ≤ 1 ∧
    (dimWeight ws l = 0 ↔ ∃ w ∈ ws, w l = 0) ∧ (∀ w ∈ ws, dimWeight ws l ≤ w l) ∧
    ∀ ws', ws.Perm ws' → dimWeight ws' l = dimWeight ws l := by
  have bounds : ∀ us : List (Fin n → ℝ), (∀ w ∈ us, ∀ l, 0 ≤ w l ∧ w l ≤ 1) →
      0 ≤ (us.map fun w => w l).prod ∧ (us.map fun w => w l).prod ≤ 1 := by
    intro us
    induction us with
    | nil => intro _; simp
    | cons u us ih =>
      intro h
      obtain ⟨h1, h2⟩ := ih fun w hw => h w (List.mem_cons_of_mem _ hw)
      obtain ⟨h3, h4⟩ := h u List.mem_cons_self l
      simp only [List.map_cons, List.prod_cons]
      exact ⟨mul_nonneg h3 h1, by nlinarith⟩
  refine ⟨dimWeight_prod ws l, ?_, ?_, ?_, ?_, ?_⟩
  · rw [dimWeight_prod]; exact (bounds ws hws).1
  · rw [dimWeight_prod]; exact (bounds ws hws).2
  · rw [dimWeight_prod, List.prod_eq_zero_iff]; simp [List.mem_map]
  · intro w hw
    rw [dimWeight_prod]
    obtain ⟨a, b, rfl⟩ := List.append_of_mem hw
    have ha := bounds a fun u hu => hws u (by simp [hu])
    have hb := bounds b fun u hu => hws u (by simp [hu])
    have h0 := hws w hw l
    simp only [List.map_append, List.map_cons, List.prod_append, List.prod_cons]
    nlinarith [mul_nonneg ha.1 hb.1, mul_le_one₀ ha.2 hb.1 hb.2, h0.1, mul_le_mul_of_nonneg_left (mul_le_one₀ ha.2 hb.1 hb.2) h0.1]
  · intro ws' hp
    rw [dimWeight_prod, dimWeight_prod]; exact ((hp.map _).prod_eq).symm

/-- With non-negative weights the general inverse exists exactly when the symmetric positive definite one does. -/
theorem invGeneral_gram (x : Matrix (Fin n) (Fin k) ℝ) (w : Fin n → ℝ) (hw : ∀ l, 0 ≤ w l) :
    invGeneral (xtwx x w) = invSympd (xtwx x w) := by
  have : IsUnit (xtwx x w).det ↔ (xtwx x w).PosDef := by
    constructor
    · intro h
      rw [gram_posDef_iff]
      intro b hb
      have hnn : 0 ≤ ∑ l, w l * (∑ j, x l j * b j) ^ 2 := Finset.sum_nonneg fun l _ => mul_nonneg (hw l) (sq_nonneg _)
      rcases eq_or_lt_of_le hnn with h0 | h0
      · exfalso
        have hz : ∀ l, w l * (∑ j, x l j * b j) = 0 := by
          intro l
          have := (Finset.sum_eq_zero_iff_of_nonneg fun l _ => mul_nonneg (hw l) (sq_nonneg _)).1 h0.symm l (Finset.mem_univ _)
          rcases mul_eq_zero.1 this with h | h
          · rw [h, zero_mul]
          · rw [pow_eq_zero_iff (by norm_num)] at h; rw [h, mul_zero]
        have hg : xtwx x w *ᵥ b = 0 := by
          rw [xtwx_mulVec]
          funext j
          simp only [mulVec, dotProduct, xtw, of_apply, Pi.zero_apply]
          refine Finset.sum_eq_zero fun l _ => ?_
          rw [mul_assoc, hz l, mul_zero]
        apply hb
        have : (xtwx x w)⁻¹ *ᵥ (xtwx x w *ᵥ b) = b := by
          rw [mulVec_mulVec, nonsing_inv_mul _ h, one_mulVec]
        rw [← this, hg, mulVec_zero]
      · exact h0
    · intro h; exact (isUnit_iff_isUnit_det _).1 h.isUnit
  unfold invGeneral invSympd
  by_cases h : (xtwx x w).PosDef
  · rw [if_pos h, if_pos (this.2 h)]
  · rw [if_neg h, if_neg fun h' => h (this.1 h')]

theorem localFitInv_eq (x : Matrix (Fin n) (Fin k) ℝ) (y w : Fin n → ℝ) (xi : Fin k → ℝ) (hw : ∀ l, 0 ≤ w l) :
    localFitInv x y w xi = localFit x y w xi := by
  unfold localFitInv localFit; rw [invGeneral_gram x w hw]

theorem dimWeight_nonneg {ws : List (Fin n → ℝ)} (h : ∀ w ∈ ws, ∀ l, 0 ≤ w l) (l : Fin n) : 0 ≤ dimWeight ws l := by
  rw [dimWeight_prod]
  apply List.prod_nonneg
  intro a ha
  obtain ⟨w, hw, rfl⟩ := List.mem_map.1 ha
  exact h w hw l

/-- **C54, fit.** Density regression is the geographically weighted regression with the product weights: same coefficients, standard errors,
hat matrix and failures. -/
theorem C54_fit_is_gwr (x : Matrix (Fin n) (Fin k) ℝ) (y : Fin n → ℝ) (D : Fin n → List (Fin n → ℝ))
    (hD : ∀ i, ∀ w ∈ D i, ∀ l, 0 ≤ w l) (sS : Bool) (stop : ℕ → Bool) :
    gwdrFitSerial x y D sS stop = fitCoreSerial x y (fun i l => ((D i).map fun w => w l).prod) 0 n sS false stop := by
  have e : (fun i l => ((D i).map fun w => w l).prod) = fun i => dimWeight (D i) := by
    funext i l; rw [dimWeight_prod]
  rw [e]
  unfold gwdrFitSerial fitCoreSerial
  congr 1
  funext i
  exact localFitInv_eq x y _ _ fun l => dimWeight_nonneg (hD i) l

/-- **C54, fit.** The coefficients at each location minimise the weighted residual sum of squares, and the fit fails exactly if some
location's positively weighted observations do not determine the coefficients. -/
theorem C54_fit (x : Matrix (Fin n) (Fin k) ℝ) (y : Fin n → ℝ) (D : Fin n → List (Fin n → ℝ)) (hD : ∀ i, ∀ w ∈ D i, ∀ l, 0 ≤ w l)
    (sS : Bool) :
    (∀ a, gwdrFitSerial x y D sS NoStop = .ok (a, false) → ∀ i, IsWLS x y (fun l => ((D i).map fun w => w l).prod) (a.betas i)) ∧
    ((∃ a, gwdrFitSerial x y D sS NoStop = .ok (a, false)) ↔ ∀ i, Determined x (fun l => ((D i).map fun w => w l).prod)) ∧
    ((∃ i, ¬ Determined x (fun l => ((D i).map fun w => w l).prod)) → gwdrFitSerial x y D sS NoStop = .throw .singular) := by
  have hW : ∀ i l, 0 ≤ (fun i l => ((D i).map fun w => w l).prod : Fin n → Fin n → ℝ) i l := by
    intro i l
    have := dimWeight_nonneg (hD i) l
    rwa [dimWeight_prod] at this
  rw [C54_fit_is_gwr x y D hD]
  obtain ⟨h1, h2⟩ := C21_fit_succeeds_iff x y _ hW sS false
  exact ⟨fun a ha i => C21_fit_is_weighted_least_squares x y _ sS false _ a ha i, h1, h2⟩

theorem quiet_total {ι ρ : Type _} (g : ι → Res ρ) (i : ι) : quiet g i = .ok (g i).toOption := by
  unfold quiet; cases g i <;> rfl

theorem quiet_fold_betas (sS : Bool) (r : Fin n → Option (LocalFit n k)) (i : Fin n) : ∀ (l : List (Fin T × Fin n)) (a : FitAccOmp n k T),
    (l.map Prod.snd).Nodup →
    (l.foldl (fun s ti => quietUpd (fitUpdOmp 0 sS false) ti.1 ti.2 (r ti.2) s) a).betas i =
      if i ∈ l.map Prod.snd then (match r i with | some lf => lf.beta | none => a.betas i) else a.betas i
  | [], a, _ => by simp
  | (t, j) :: l, a, hnd => by
    rw [List.map_cons, List.nodup_cons] at hnd
    rw [List.foldl_cons, quiet_fold_betas sS r i l _ hnd.2]
    by_cases hij : i = j
    · subst hij
      rw [if_neg hnd.1, if_pos (by simp)]
      cases hr : r i with
      | none => simp [quietUpd]
      | some lf => exact Function.update_self (β := fun _ => Fin k → ℝ) i lf.beta a.betas
    · have hb : (quietUpd (fitUpdOmp 0 sS false) t j (r j) a).betas i = a.betas i := by
        cases hr : r j with
        | none => rfl
        | some lf => exact Function.update_of_ne (β := fun _ => Fin k → ℝ) hij lf.beta a.betas
      simp only [hb, List.map_cons, List.mem_cons, hij, false_or]

/-- **C54, parallel fit (refuted: failures are hidden).** Whatever the schedule, the parallel fit never reports a failure. Locations whose
coefficients are determined get them; the others get coefficients 0 — where the serial fit throws. -/
theorem C54_parallel_hides_failures (x : Matrix (Fin n) (Fin k) ℝ) (y : Fin n → ℝ) (D : Fin n → List (Fin n → ℝ))
    (hD : ∀ i, ∀ w ∈ D i, ∀ l, 0 ≤ w l) (sS : Bool) (evs : List (OmpEv (Fin n) (Fin T))) (hs : Schedule (workRange n 0 n) evs) :
    ∃ a, gwdrFitOmp x y D sS NoStop evs = .ok (a, false) ∧ ∀ i,
      (Determined x (fun l => ((D i).map fun w => w l).prod) → IsWLS x y (fun l => ((D i).map fun w => w l).prod) (a.betas i)) ∧
      (¬ Determined x (fun l => ((D i).map fun w => w l).prod) →
        a.betas i = 0 ∧ gwdrFitSerial x y D sS NoStop = .throw .singular) := by
  obtain ⟨h1, h2, h3⟩ := omp_ok (g := quiet fun i => localFitInv x y (dimWeight (D i)) (x i))
    (upd := quietUpd (fitUpdOmp (T := T) 0 sS false)) (stop := NoStop) (fun _ => rfl)
    (fun i => (localFitInv x y (dimWeight (D i)) (x i)).toOption) (FitAccOmp.zero : FitAccOmp n k T) hs (fun i _ => quiet_total _ i)
  have hdw : ∀ i, (fun l => ((D i).map fun w => w l).prod) = dimWeight (D i) := by
    intro i; funext l; rw [dimWeight_prod]
  set s := ompRun (quiet fun i => localFitInv x y (dimWeight (D i)) (x i)) (quietUpd (fitUpdOmp (T := T) 0 sS false)) NoStop evs
    FitAccOmp.zero with hsdef
  refine ⟨{ betas := s.st.betas, se := s.st.se, shat := ∑ t, s.st.shatAll t, qdiag := ∑ t, s.st.qdiagAll t, s := s.st.s, c := s.st.c }, ?_, ?_⟩
  · simp only [gwdrFitOmp, ← hsdef, h1, if_true, h2]
  · intro i
    have hnd : ((finishes evs).map Prod.snd).Nodup := hs.finishes.nodup_iff.2 (nodup_workRange n 0 n)
    have hmem : i ∈ (finishes evs).map Prod.snd := hs.finishes.mem_iff.2 (mem_workRange.2 ⟨Nat.zero_le _, i.isLt⟩)
    have hb : s.st.betas i = match (localFitInv x y (dimWeight (D i)) (x i)).toOption with
          | some lf => lf.beta | none => 0 := by
      rw [h3, quiet_fold_betas sS (fun i => (localFitInv x y (dimWeight (D i)) (x i)).toOption) i _ _ hnd, if_pos hmem]; rfl
    rw [hdw i]
    have hw : ∀ l, 0 ≤ dimWeight (D i) l := fun l => dimWeight_nonneg (hD i) l
    refine ⟨fun hd => ?_, fun hd => ⟨?_, ?_⟩⟩
    · have hp := (gram_posDef_iff_determined x _ hw).2 hd
      simp only [hb]
      rw [localFitInv_eq x y _ _ hw]
      have : localFit x y (dimWeight (D i)) (x i) = .ok (fitAt x y (fun i => dimWeight (D i)) i) := localFit_fitAt (W := fun i => dimWeight (D i)) hp
      rw [this]
      exact isWLS_of_posDef hp
    · simp only [hb]
      rw [localFitInv_eq x y _ _ hw]
      rcases localFit_cases x y (dimWeight (D i)) (x i) with ⟨r, hr⟩ | hr
      · exact absurd ((gram_posDef_iff_determined x _ hw).1 (localFit_eq_ok.1 hr).1) hd
      · rw [hr]; rfl
    · exact (C54_fit x y D hD sS).2.2 ⟨i, by rwa [hdw i]⟩

theorem looTerm_eq (x : Matrix (Fin n) (Fin k) ℝ) (y : Fin n → ℝ) (W : Fin n → Fin n → ℝ) (hW : ∀ i l, 0 ≤ W i l) (i : Fin n) :
    (∃ b, IsWLS x y (fun l => if l = i then 0 else W i l) b ∧ looTerm x y W i = .ok ((y i - ∑ j, x i j * b j) ^ 2) ∧
      Determined x (fun l => if l = i then 0 else W i l)) ∨
    (looTerm x y W i = .throw .singular ∧ ¬ Determined x (fun l => if l = i then 0 else W i l)) := by
  have hc : cvWeight W i = fun l => if l = i then 0 else W i l := by
    funext l; simp only [cvWeight, Function.update_apply]
  have hnn : ∀ l, 0 ≤ cvWeight W i l := by
    intro l; rw [hc]; simp only; split
    · exact le_rfl
    · exact hW i l
  rw [← hc]
  unfold looTerm
  rw [invGeneral_gram x _ hnn]
  by_cases hp : (xtwx x (cvWeight W i)).PosDef
  · refine Or.inl ⟨_, isWLS_of_posDef hp, ?_, (gram_posDef_iff_determined x _ hnn).1 hp⟩
    unfold invSympd
    rw [if_pos hp]
    simp only [Res.bind, Res.ok.injEq, sq]
    rfl
  · refine Or.inr ⟨?_, fun h => hp ((gram_posDef_iff_determined x _ hnn).2 h)⟩
    unfold invSympd
    rw [if_neg hp]; rfl

/-- **C54, cross-validation.** The criterion is the sum of squared leave-one-out prediction errors with the product weights, or `DBL_MAX` if
some left-out fit is not determined; the multithreaded variant returns the same number. -/
theorem C54_cross_validation (x : Matrix (Fin n) (Fin k) ℝ) (y : Fin n → ℝ) (D : Fin n → List (Fin n → ℝ))
    (hD : ∀ i, ∀ w ∈ D i, ∀ l, 0 ≤ w l) (T : ℕ) :
    ((∀ i, Determined x (fun l => if l = i then 0 else ((D i).map fun w => w l).prod)) → ∃ b : Fin n → Fin k → ℝ,
      (∀ i, IsWLS x y (fun l => if l = i then 0 else ((D i).map fun w => w l).prod) (b i)) ∧
      gwdrCVSerial x y D NoStop = finiteOrMax (∑ i, (y i - ∑ j, x i j * b i j) ^ 2)) ∧
    ((∃ i, ¬ Determined x (fun l => if l = i then 0 else ((D i).map fun w => w l).prod)) → gwdrCVSerial x y D NoStop = dblMax) ∧
    gwdrCVOmp T x y D = gwdrCVSerial x y D NoStop := by
  have hdw : (fun i l => ((D i).map fun w => w l).prod) = fun i => dimWeight (D i) := by funext i l; rw [dimWeight_prod]
  have hW : ∀ i l, 0 ≤ (fun i => dimWeight (D i) : Fin n → Fin n → ℝ) i l := fun i l => dimWeight_nonneg (hD i) l
  have hdw' : ∀ i, (fun l => if l = i then 0 else ((D i).map fun w => w l).prod) = fun l => if l = i then 0 else dimWeight (D i) l := by
    intro i; funext l; rw [dimWeight_prod]
  simp only [hdw']
  have key := looTerm_eq x y (fun i => dimWeight (D i)) hW
  by_cases hall : ∀ i, Determined x (fun l => if l = i then 0 else dimWeight (D i) l)
  · have : ∀ i, ∃ b, IsWLS x y (fun l => if l = i then 0 else dimWeight (D i) l) b ∧
        looTerm x y (fun i => dimWeight (D i)) i = .ok ((y i - ∑ j, x i j * b j) ^ 2) := by
      intro i
      rcases key i with ⟨b, h1, h2, -⟩ | ⟨-, h⟩
      · exact ⟨b, h1, h2⟩
      · exact absurd (hall i) h
    choose b hb1 hb2 using this
    have e1 := serialFor_ok (g := looTerm x y fun i => dimWeight (D i)) (upd := fun _ c cv => cv + c) (stop := NoStop)
      (fun i => (y i - ∑ j, x i j * b i j) ^ 2) (List.finRange n) 0 (0 : ℝ) (fun _ _ => rfl) (fun i _ => hb2 i)
    have e2 := serialFor_ok (g := looTerm x y fun i => dimWeight (D i))
      (upd := fun _ c (cv : Fin (T + 1) → ℝ) => Function.update cv 0 (cv 0 + c)) (stop := fun _ => false)
      (fun i => (y i - ∑ j, x i j * b i j) ^ 2) (List.finRange n) 0 (0 : Fin (T + 1) → ℝ) (fun _ _ => rfl) (fun i _ => hb2 i)
    have s1 : (List.finRange n).foldl (fun cv i => cv + (y i - ∑ j, x i j * b i j) ^ 2) (0 : ℝ) = ∑ i, (y i - ∑ j, x i j * b i j) ^ 2 := by
      rw [foldl_add, zero_add, ← List.ofFn_eq_map, List.sum_ofFn]
    have s2 : ∀ (l : List (Fin n)) (f : Fin (T + 1) → ℝ),
        ∑ t, (l.foldl (fun cv i => Function.update cv 0 (cv 0 + (y i - ∑ j, x i j * b i j) ^ 2)) f) t =
          l.foldl (fun cv i => cv + (y i - ∑ j, x i j * b i j) ^ 2) (∑ t, f t) := by
      intro l
      induction l with
      | nil => intro f; rfl
      | cons i l ih =>
        intro f
        rw [List.foldl_cons, List.foldl_cons, ih]
        congr 1
        rw [Fin.sum_univ_succ, Fin.sum_univ_succ]
        simp [Function.update_apply, Fin.succ_ne_zero]; ring
    have hser : gwdrCVSerial x y D NoStop = finiteOrMax (∑ i, (y i - ∑ j, x i j * b i j) ^ 2) := by
      unfold gwdrCVSerial; rw [e1]; simp only [s1]
    refine ⟨fun _ => ⟨b, hb1, hser⟩, fun ⟨i, hi⟩ => absurd (hall i) hi, ?_⟩
    rw [hser]
    unfold gwdrCVOmp
    rw [e2]
    simp only [s2]
    simp only [Pi.zero_apply, Finset.sum_const_zero, s1]
  · push Not at hall
    obtain ⟨i, hi⟩ := hall
    have hcases : ∀ i, (∃ r, looTerm x y (fun i => dimWeight (D i)) i = .ok r) ∨
        looTerm x y (fun i => dimWeight (D i)) i = .throw .singular := by
      intro i
      rcases key i with ⟨b, -, h2, -⟩ | ⟨h, -⟩
      · exact Or.inl ⟨_, h2⟩
      · exact Or.inr h
    have hfail : looTerm x y (fun i => dimWeight (D i)) i = .throw .singular := by
      rcases key i with ⟨b, -, -, h⟩ | ⟨h, -⟩
      · exact absurd h hi
      · exact h
    have e1 := serialFor_fail (upd := fun _ c cv => cv + c) (stop := NoStop) hcases (List.finRange n) 0 (0 : ℝ) (fun _ _ => rfl)
      ⟨i, List.mem_finRange i, hfail⟩
    have e2 := serialFor_fail (upd := fun _ c (cv : Fin (T + 1) → ℝ) => Function.update cv 0 (cv 0 + c)) (stop := fun _ => false)
      hcases (List.finRange n) 0 (0 : Fin (T + 1) → ℝ) (fun _ _ => rfl) ⟨i, List.mem_finRange i, hfail⟩
    have hser : gwdrCVSerial x y D NoStop = dblMax := by unfold gwdrCVSerial; rw [e1]
    refine ⟨fun h => absurd (h i) hi, fun _ => hser, ?_⟩
    rw [hser]; unfold gwdrCVOmp; rw [e2]

/-- **C54, AICc.** The criterion is the AICc of the weighted regression with the product weights (`DBL_MAX` if that fails or is not finite),
and the multithreaded variant returns the same number under every schedule, failures included. -/
theorem C54_aic (x : Matrix (Fin n) (Fin k) ℝ) (y : Fin n → ℝ) (D : Fin n → List (Fin n → ℝ)) (hD : ∀ i, ∀ w ∈ D i, ∀ l, 0 ≤ w l)
    (evs : List (OmpEv (Fin n) (Fin T))) (hs : Schedule (workRange n 0 n) evs) :
    gwdrAICSerial x y D NoStop =
      criterionAIC x y false (fitCoreSHatSerial x y (fun i l => ((D i).map fun w => w l).prod) 0 n NoStop) ∧
    gwdrAICOmp x y D NoStop evs = gwdrAICSerial x y D NoStop := by
  have hdw : (fun i l => ((D i).map fun w => w l).prod) = fun i => dimWeight (D i) := by funext i l; rw [dimWeight_prod]
  have hf : (fun i => localFitInv x y (dimWeight (D i)) (x i)) = fun i => localFit x y (dimWeight (D i)) (x i) := by
    funext i; exact localFitInv_eq x y _ _ fun l => dimWeight_nonneg (hD i) l
  have h1 : gwdrAICSerial x y D NoStop = criterionAIC x y false (fitCoreSHatSerial x y (fun i => dimWeight (D i)) 0 n NoStop) := by
    unfold gwdrAICSerial fitCoreSHatSerial; rw [hf, workRange_all]
  rw [hdw]
  refine ⟨h1, ?_⟩
  rw [h1]
  unfold gwdrAICOmp
  rw [hf]
  by_cases hall : ∀ i, ∃ r, localFit x y (dimWeight (D i)) (x i) = .ok r
  · choose r hr using hall
    have e1 : fitCoreSHatSerial x y (fun i => dimWeight (D i)) 0 n NoStop = _ := serialFor_ok r _ 0 _ (fun _ _ => rfl) (fun i _ => hr i)
    obtain ⟨s1, -, -⟩ := omp_ok (g := fun i => localFit x y (dimWeight (D i)) (x i)) (upd := shatUpdOmp (T := T)) (stop := NoStop)
      (fun _ => rfl) r ((0, 0) : Matrix (Fin n) (Fin k) ℝ × (Fin T → Fin 2 → ℝ)) hs (fun i _ => hr i)
    have := (C28_criteria_equal_partial x y (fun i => dimWeight (D i)) evs hs false).2 ⟨_, e1⟩
    rw [← this]
    simp only [s1, if_true]
    rfl
  · push Not at hall
    obtain ⟨i, hi⟩ := hall
    have s1 := omp_fail (g := fun i => localFit x y (dimWeight (D i)) (x i)) (upd := shatUpdOmp (T := T)) (stop := NoStop)
      (fun _ => rfl) ((0, 0) : Matrix (Fin n) (Fin k) ℝ × (Fin T → Fin 2 → ℝ)) (nodup_workRange n 0 n) hs i
      (mem_workRange.2 ⟨Nat.zero_le _, i.isLt⟩) hi
    have e1 : fitCoreSHatSerial x y (fun i => dimWeight (D i)) 0 n NoStop = .throw .singular := by
      refine serialFor_fail (fun j => localFit_cases x y _ _) _ _ _ (fun _ _ => rfl) ⟨i, mem_workRange.2 ⟨Nat.zero_le _, i.isLt⟩, ?_⟩
      rcases localFit_cases x y (dimWeight (D i)) (x i) with ⟨r, h⟩ | h
      · exact absurd h (hi r)
      · exact h
    rw [e1]
    simp [s1, criterionAIC]

/-- Two dimensions with exponential-like weights: all hypotheses of the C54 theorems hold, and the fit succeeds. -/
theorem ex_gwdr : (∀ i, ∀ w ∈ (fun i => [exW i, exW i] : Fin 3 → List (Fin 3 → ℝ)) i, ∀ l, 0 ≤ w l) ∧
    ∃ a, gwdrFitSerial exX ![1, 3, 2] (fun i => [exW i, exW i]) true NoStop = .ok (a, false) := by
  have h0 : ∀ i, ∀ w ∈ (fun i => [exW i, exW i] : Fin 3 → List (Fin 3 → ℝ)) i, ∀ l, 0 ≤ w l := by
    intro i w hw l
    simp at hw; subst hw; exact (exW_pos i l).le
  refine ⟨h0, (C54_fit exX ![1, 3, 2] _ h0 true).2.1.2 ?_⟩
  intro i
  exact exX_determined _ fun l => by
    simpa using mul_pos (exW_pos i l) (exW_pos i l)

/-! ### C61: the bandwidth optimiser -/

theorem simplexLoop_spec (size : ℕ → ℝ) (bad : ℕ → Bool) (eps : ℝ) (maxIter : ℕ) : ∀ (fuel iter : ℕ), max 1 maxIter ≤ iter + fuel →
    iter < max 1 maxIter →
    iter < (simplexLoop size bad eps maxIter fuel iter).1 ∧ (simplexLoop size bad eps maxIter fuel iter).1 ≤ max 1 maxIter ∧
    (∀ j, iter < j → j < (simplexLoop size bad eps maxIter fuel iter).1 → bad j = false ∧ eps ≤ size j) ∧
    ((simplexLoop size bad eps maxIter fuel iter).2 = true ↔ bad (simplexLoop size bad eps maxIter fuel iter).1 = false ∧ 0 ≤ eps ∧
      size (simplexLoop size bad eps maxIter fuel iter).1 < eps) ∧
    ((simplexLoop size bad eps maxIter fuel iter).2 = false → bad (simplexLoop size bad eps maxIter fuel iter).1 = true ∨ eps < 0 ∨
      (simplexLoop size bad eps maxIter fuel iter).1 = max 1 maxIter)
  | 0, iter, h1, h2 => by omega
  | fuel + 1, iter, h1, h2 => by
    by_cases hb : bad (iter + 1) = true
    · have e : simplexLoop size bad eps maxIter (fuel + 1) iter = (iter + 1, false) := by simp [simplexLoop, hb]
      rw [e]
      exact ⟨by omega, by omega, fun j h3 h4 => by simp only at h4; omega, by simp [hb], fun _ => Or.inl hb⟩
    · have hb' : bad (iter + 1) = false := by simpa using hb
      by_cases he : eps < 0
      · have e : simplexLoop size bad eps maxIter (fuel + 1) iter = (iter + 1, false) := by simp [simplexLoop, he]
        rw [e]
        exact ⟨by omega, by omega, fun j h3 h4 => by simp only at h4; omega, by simp [not_le.2 he], fun _ => Or.inr (Or.inl he)⟩
      · by_cases hs : size (iter + 1) < eps
        · have e : simplexLoop size bad eps maxIter (fuel + 1) iter = (iter + 1, true) := by simp [simplexLoop, hb', he, hs]
          rw [e]
          exact ⟨by omega, by omega, fun j h3 h4 => by simp only at h4; omega, by simp [hb', not_lt.1 he, hs], by simp⟩
        · by_cases hm : iter + 1 < maxIter
          · have e : simplexLoop size bad eps maxIter (fuel + 1) iter = simplexLoop size bad eps maxIter fuel (iter + 1) := by
              simp [simplexLoop, hb', he, hs, hm]
            rw [e]
            obtain ⟨a1, a2, a3, a4, a5⟩ := simplexLoop_spec size bad eps maxIter fuel (iter + 1) (by omega) (by omega)
            refine ⟨by omega, a2, ?_, a4, a5⟩
            intro j h3 h4
            rcases Nat.lt_or_ge (iter + 1) j with h | h
            · exact a3 j h h4
            · have : j = iter + 1 := by omega
              subst this; exact ⟨hb', not_lt.1 hs⟩
          · have e : simplexLoop size bad eps maxIter (fuel + 1) iter = (iter + 1, false) := by
              simp [simplexLoop, hb', he, hs, hm]
            rw [e]
            exact ⟨by omega, by omega, fun j h3 h4 => by simp only at h4; omega,
              ⟨fun h => by simp at h, fun h => absurd h.2.2 hs⟩, fun _ => Or.inr (Or.inr (by simp only; omega))⟩

/-- **C61, termination and verdict.** The simplex search makes at least one and at most `max 1 maxIter` iterations; it reports success
exactly if the simplex became smaller than the tolerance within that limit before an error — in particular a search that uses up its
iterations is reported as a failure, upon which `fit()` throws. -/
theorem C61_search_terminates (size : ℕ → ℝ) (bad : ℕ → Bool) (eps : ℝ) (he : 0 ≤ eps) (maxIter : ℕ) :
    1 ≤ (simplexRun size bad eps maxIter).1 ∧ (simplexRun size bad eps maxIter).1 ≤ max 1 maxIter ∧
    ((simplexRun size bad eps maxIter).2 = true ↔
      ∃ i, 1 ≤ i ∧ i ≤ max 1 maxIter ∧ size i < eps ∧ ∀ j, 1 ≤ j → j ≤ i → bad j = false) := by
  obtain ⟨a1, a2, a3, a4, a5⟩ := simplexLoop_spec size bad eps maxIter (maxIter + 1) 0 (by omega) (by omega)
  unfold simplexRun
  set r := simplexLoop size bad eps maxIter (maxIter + 1) 0 with hr
  refine ⟨a1, a2, ?_, ?_⟩
  · intro h
    obtain ⟨h1, -, h3⟩ := a4.1 h
    refine ⟨r.1, a1, a2, h3, fun j h4 h5 => ?_⟩
    rcases Nat.lt_or_ge j r.1 with h | h
    · exact (a3 j h4 h).1
    · have : j = r.1 := by omega
      rw [this]; exact h1
  · rintro ⟨i, h1, h2, h3, h4⟩
    by_contra hne
    have hf : r.2 = false := by simpa using hne
    have hi : r.1 ≤ i := by
      by_contra hlt
      exact absurd h3 (not_lt.2 (a3 i h1 (by omega)).2)
    rcases a5 hf with h | h | h
    · rw [h4 r.1 a1 hi] at h; cases h
    · linarith
    · have : i = r.1 := by omega
      rw [this] at h3 h4
      exact absurd (a4.2 ⟨h4 r.1 a1 le_rfl, he, h3⟩) hne

/-- **C61 (partial: adaptive bandwidths).** If all kernels are adaptive the search starts at the bandwidths currently set (when they are
not negative), and the bandwidths stored at the end are whole numbers within 1/2 of bandwidths that were tried. Missing: they need not
themselves have been tried, and see `C61_fixed_start_wrong`. -/
theorem C61_adaptive_partial (n : ℕ) (hn : 0 < n) (bw : Fin d → ℝ) (hbw : ∀ m, 0 ≤ bw m) (best : Fin d → ℝ) :
    triedBandwidths n (startPoint n (fun _ => true) bw) = bw ∧
    ∀ m, |finalBandwidths n best m - triedBandwidths n best m| ≤ 1 / 2 ∧ (∃ z : ℕ, finalBandwidths n best m = z) := by
  have hn' : (0 : ℝ) < n := Nat.cast_pos.2 hn
  refine ⟨?_, fun m => ⟨?_, ?_⟩⟩
  · funext m
    simp only [triedBandwidths, startPoint, if_true]
    rw [abs_of_nonneg (div_nonneg (hbw m) hn'.le), div_mul_cancel₀ _ hn'.ne']
  · simp only [finalBandwidths, triedBandwidths]
    have h1 := Int.floor_le (|best m| * n + 1 / 2)
    have h2 := Int.lt_floor_add_one (|best m| * n + 1 / 2)
    rw [abs_le]; constructor <;> linarith
  · have h0 : 0 ≤ ⌊|best m| * n + 1 / 2⌋ := Int.floor_nonneg.2 (by positivity)
    obtain ⟨z, hz⟩ := Int.eq_ofNat_of_zero_le h0
    exact ⟨z, by simp only [finalBandwidths]; rw [hz]; simp⟩

/-- **C61 (refuted for fixed bandwidths).** For a fixed kernel the first bandwidth tried is not the one set but `n` times it; for
`n ≥ 2` and any positive bandwidth these differ. -/
theorem C61_fixed_start_wrong (n : ℕ) (hn : 2 ≤ n) (bw : Fin d → ℝ) (m : Fin d) (hbw : 0 < bw m) :
    triedBandwidths n (startPoint n (fun _ => false) bw) m = bw m * n ∧ triedBandwidths n (startPoint n (fun _ => false) bw) m ≠ bw m := by
  have e : triedBandwidths n (startPoint n (fun _ => false) bw) m = bw m * n := by
    simp [triedBandwidths, startPoint, abs_of_pos hbw]
  refine ⟨e, ?_⟩
  rw [e]
  have : (2 : ℝ) ≤ n := by exact_mod_cast hn
  nlinarith

/-- **C61 (refuted for small bandwidths).** Whenever the best bandwidth found is below 1/2 — for instance with coordinates in kilometres
or degrees — the bandwidth stored is 0. -/
theorem C61_small_bandwidth_lost (n : ℕ) (best : Fin d → ℝ) (m : Fin d) (h : triedBandwidths n best m < 1 / 2) :
    finalBandwidths n best m = 0 := by
  have h0 : 0 ≤ |best m| * n := by positivity
  simp only [triedBandwidths] at h
  simp only [finalBandwidths, Int.cast_eq_zero]
  rw [Int.floor_eq_zero_iff]
  constructor <;> linarith

example : triedBandwidths 10 (![1 / 50] : Fin 1 → ℝ) 0 = 1 / 5 ∧ finalBandwidths 10 (![1 / 50] : Fin 1 → ℝ) 0 = 0 := by
  have h : triedBandwidths 10 (![1 / 50] : Fin 1 → ℝ) 0 = 1 / 5 := by simp [triedBandwidths]; norm_num
  exact ⟨h, C61_small_bandwidth_lost _ _ _ (by rw [h]; norm_num)⟩

/-- A search that converges in its second iteration. -/
example : (simplexRun (fun i => 1 / (i : ℝ)) (fun _ => false) (3 / 4) 5).2 = true :=
  (C61_search_terminates _ _ _ (by norm_num) _).2.2.2 ⟨2, by norm_num, by norm_num, by norm_num, fun _ _ _ => rfl⟩

/-! ### C60: prediction -/

/-- **C60 (refuted).** Density regression (and multiscale regression) "predict" zero coefficients everywhere, which is not the weighted
least squares solution as soon as some response is visible to the weights. -/
theorem C60_predicts_zero (m : ℕ) (x : Matrix (Fin n) (Fin k) ℝ) (y w : Fin n → ℝ) (i : Fin m) (b : Fin k → ℝ) (hb : IsWLS x y w b)
    (hne : b ≠ 0) : predictZeros m k i = 0 ∧ ¬ IsWLS x y w (predictZeros m k i) := by
  refine ⟨rfl, fun h => ?_⟩
  have h1 := hb (predictZeros m k i) (fun e => hne (by rw [← e]; rfl))
  have h2 := h b (fun e => hne (by rw [e]; rfl))
  exact absurd h1 (not_lt.2 h2.le)

end Verif.Props

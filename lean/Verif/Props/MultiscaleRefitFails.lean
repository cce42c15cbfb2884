import Verif.Props.MultiscaleRefit

/-! # C136: a data set on which the second fit of a multiscale model differs from the first -/

namespace Verif.Props
open Verif Verif.Model Verif.Spec Matrix Classical

/-- A coefficient vector that satisfies the normal equations solves the weighted least-squares problem, if the coefficients are determined. -/
theorem wls_normal {n k : ℕ} {x : Matrix (Fin n) (Fin k) ℝ} {y w : Fin n → ℝ} {b : Fin k → ℝ} (hw : ∀ l, 0 ≤ w l) (hd : Determined x w)
    (h : ∀ j, ∑ l, w l * x l j * (y l - ∑ m, x l m * b m) = 0) : IsWLS x y w b := by
  intro b' hb
  have e : wss x y w b' = wss x y w b + ∑ l, w l * (∑ m, x l m * (b' m - b m)) ^ 2 := by
    have hz : ∑ l, w l * (y l - ∑ m, x l m * b m) * (∑ m, x l m * (b' m - b m)) = 0 := by
      have : ∀ l, w l * (y l - ∑ m, x l m * b m) * (∑ m, x l m * (b' m - b m)) =
          ∑ m, (w l * x l m * (y l - ∑ m, x l m * b m)) * (b' m - b m) := fun l => by
        rw [Finset.mul_sum]
        exact Finset.sum_congr rfl fun m _ => by ring
      simp only [this]
      rw [Finset.sum_comm]
      refine Finset.sum_eq_zero fun m _ => ?_
      rw [← Finset.sum_mul, h m, zero_mul]
    unfold wss
    have : ∀ l, w l * (y l - ∑ j, x l j * b' j) ^ 2 = w l * (y l - ∑ j, x l j * b j) ^ 2 + w l * (∑ m, x l m * (b' m - b m)) ^ 2 -
        2 * (w l * (y l - ∑ m, x l m * b m) * (∑ m, x l m * (b' m - b m))) := fun l => by
      have : ∑ m, x l m * (b' m - b m) = ∑ j, x l j * b' j - ∑ j, x l j * b j := by
        rw [← Finset.sum_sub_distrib]
        exact Finset.sum_congr rfl fun m _ => by ring
      rw [this]; ring
    simp only [this]
    rw [Finset.sum_sub_distrib, Finset.sum_add_distrib, ← Finset.mul_sum, hz]
    ring
  rw [e]
  have hne : ∃ l, 0 < w l ∧ ∑ m, x l m * (b' m - b m) ≠ 0 := by
    by_contra hcon
    push Not at hcon
    exact hb (funext fun m => sub_eq_zero.1 (congrFun (hd (fun m => b' m - b m) fun l hl => hcon l hl) m))
  obtain ⟨l, hl, hl2⟩ := hne
  have : 0 < ∑ l, w l * (∑ m, x l m * (b' m - b m)) ^ 2 :=
    Finset.sum_pos' (fun l _ => mul_nonneg (hw l) (sq_nonneg _)) ⟨l, Finset.mem_univ _, mul_pos hl (by positivity)⟩
  linarith

/-- Two observations at each of two places, five units apart. -/
def hamCoords : DynMat := ⟨4, 2, fun i k => if k = 0 ∧ 2 ≤ i then 5 else 0⟩

/-- Whether two observations are at the same place. -/
def hamSame (i l : Fin 4) : Prop := i.val < 2 ↔ l.val < 2

instance (i l : Fin 4) : Decidable (hamSame i l) := inferInstanceAs (Decidable (i.val < 2 ↔ l.val < 2))

def hamDist (i l : Fin 4) : ℝ := if hamSame i l then 0 else 5

theorem ham_mapDistance : IsMapDistance (m := 4) (n := 4) false hamCoords hamCoords hamDist := by
  simp only [IsMapDistance, Bool.false_eq_true, if_false]
  intro i l
  have h5 : √(5 * 5 : ℝ) = 5 := Real.sqrt_mul_self (by norm_num)
  fin_cases i <;> fin_cases l <;> simp [hamDist, hamSame, plane, hamCoords, h5, sq] <;> norm_num [h5]

/-- The boxcar weights: up to bandwidth 5 those of the same place, beyond it those of all observations. -/
noncomputable def hamW (b : ℝ) (i l : Fin 4) : ℝ := if hamSame i l ∨ 5 < b then 1 else 0

theorem hamW_kernel {b : ℝ} (hb : 0 < b) : IsKernelWeight ⟨b, false, .Boxcar⟩ hamDist (hamW b) := by
  intro i
  refine ⟨b, by simp [IsRadius], fun l => ?_⟩
  simp only [kernelFormula, hamDist, hamW]
  by_cases h : hamSame i l
  · simp [h, hb]
  · simp [h]

theorem hamW_nonneg (b : ℝ) (i l : Fin 4) : 0 ≤ hamW b i l := by
  unfold hamW; split <;> norm_num

theorem hamW_near {b : ℝ} (hb : b ≤ 5) : hamW b = fun i l => if hamSame i l then 1 else 0 := by
  funext i l; simp [hamW, not_lt.2 hb]

theorem hamW_far {b : ℝ} (hb : 5 < b) : hamW b = fun _ _ => 1 := by
  funext i l; simp [hamW, hb]

/-- The intercept and one predictor. -/
def hamX : Matrix (Fin 4) (Fin 2) ℝ := ![![1, 1], ![1, -1], ![1, 2], ![1, 2]]

/-- The response is 1 plus the predictor at the first place and 0 at the second. -/
def hamY : Fin 4 → ℝ := ![2, 0, 0, 0]

/-- The bandwidth of the intercept is searched between 1 and 9 and considered settled after two sweeps; the predictor has bandwidth 3, which the user
gave. At most two sweeps. -/
noncomputable def hamSetup : MgwrSetup 4 2 :=
  { coords := hamCoords, x := hamX, y := hamY, hasIntercept := true, centred := fun _ => false,
    dist0 := ⟨false, none⟩, bw0 := ⟨7, false, .Boxcar⟩, dist := fun _ => ⟨false, none⟩,
    bw := ![⟨7, false, .Boxcar⟩, ⟨3, false, .Boxcar⟩],
    init := ![.Initial, .Specified], approach := fun _ => .CV, lower := some 1, upper := some 9, adaptiveLower := 10,
    threshold := fun _ => 10, retry := 2, critType := .CVR, critThreshold := 0, maxIter := 2 }

/-- A search between 1 and 9 for a function with one value up to 5 and another one beyond finds the side of the smaller value. -/
theorem ham_search {b0 : BandwidthWeight} (hb0 : b0.mAdaptive = false) (o : Oracle) {cn cf : ℝ}
    (hn : ∀ j b, 0 < b → b ≤ 5 → o j { b0 with mBandwidth := b } = (true, cn)) (hf : ∀ j b, 5 < b → o j { b0 with mBandwidth := b } = (true, cf))
    (hlt : cn ≠ cf) (ht : ∀ j b, (o j b).1 = true) :
    ∃ b, (optimize b0 1 9 o []).out = .ok ⟨b, false, b0.mKernel⟩ ∧ 1 ≤ b ∧ b ≤ 9 ∧ (cn < cf → b ≤ 5) ∧ (cf < cn → 5 < b) := by
  obtain ⟨g1, g2⟩ := goldenR_bounds
  have hs0 : (goldenInit b0 1 9 o []).f1 = cf ∧ (goldenInit b0 1 9 o []).f2 = cn := by
    simp only [goldenInit]
    rw [if_neg (by simp [hb0]), if_neg (by simp [hb0]), hf _ _ (by linarith), hn _ _ (by linarith) (by linarith)]
    exact ⟨rfl, rfl⟩
  obtain ⟨b, hout⟩ : ∃ b, (optimize b0 1 9 o []).out = .ok b := by
    rcases optimize_cases b0 1 9 o [] with ⟨-, he⟩ | ⟨-, -, h1, h2, he⟩ | ⟨-, -, -, -, -, he⟩ | ⟨-, -, -, -, he⟩
    · exact ⟨_, by rw [he]⟩
    · rw [hs0.1] at h1; rw [hs0.2] at h2; exact absurd (h2.trans h1.symm) hlt
    · exact ⟨_, by rw [he]⟩
    · exact ⟨_, by rw [he]⟩
  have hev := evals_oracle b0 1 9 o []
  obtain ⟨e, he, hx, hbest⟩ := C14_returns_best_evaluated _ _ _ _ _ _ hout fun e he => by
    obtain ⟨j, hj⟩ := hev e he
    have := ht j { b0 with mBandwidth := e.x }
    rwa [hj] at this
  have hkind := optimize_kind _ _ _ _ _ hout
  have hin : ∀ e ∈ (optimize b0 1 9 o []).evals, 1 ≤ e.x ∧ e.x ≤ 9 := (C15_fixed_within_bounds b0 hb0 1 9 (by norm_num) o []).1
  have hval : ∀ e ∈ (optimize b0 1 9 o []).evals, (e.x ≤ 5 → e.f = cn) ∧ (5 < e.x → e.f = cf) := by
    intro e he
    obtain ⟨j, hj⟩ := hev e he
    refine ⟨fun h => ?_, fun h => ?_⟩
    · rw [hn j e.x (by linarith [(hin e he).1]) h] at hj
      exact (Prod.mk.inj hj).2.symm
    · rw [hf j e.x h] at hj
      exact (Prod.mk.inj hj).2.symm
  obtain ⟨⟨e1, m1, x1⟩, ⟨e2, m2, x2⟩⟩ : (∃ e ∈ (optimize b0 1 9 o []).evals, e.x = 1 + goldenR * (9 - 1)) ∧
      ∃ e ∈ (optimize b0 1 9 o []).evals, e.x = 9 - goldenR * (9 - 1) := by
    obtain ⟨a, b, rest, h1, h2⟩ := C127_search_starts b0 1 9 o []
    simp only [hb0, Bool.false_eq_true, if_false] at h2
    have ha : a ∈ (optimize b0 1 9 o []).evals.map Eval.x := by rw [h1]; simp
    have hb : b ∈ (optimize b0 1 9 o []).evals.map Eval.x := by rw [h1]; simp
    obtain ⟨e1, m1, k1⟩ := List.mem_map.1 ha
    obtain ⟨e2, m2, k2⟩ := List.mem_map.1 hb
    exact ⟨⟨e1, m1, k1.trans h2.1⟩, ⟨e2, m2, k2.trans h2.2⟩⟩
  refine ⟨b.mBandwidth, ?_, hx ▸ (hin e he).1, hx ▸ (hin e he).2, fun h => ?_, fun h => ?_⟩
  · rw [hout, hkind, hb0]
  · by_contra hc
    have h1 := (hval e he).2 (by rw [hx]; exact not_le.1 hc)
    have h2 := (hval e2 m2).1 (by rw [x2]; linarith)
    have := hbest e2 m2
    linarith
  · by_contra hc
    have h1 := (hval e he).1 (by rw [hx]; exact not_lt.1 hc)
    have h2 := (hval e1 m1).2 (by rw [x1]; linarith)
    have := hbest e1 m1
    linarith

/-- The first column is 1, the second one never 0. -/
theorem ham_col_ne (i : Fin 2) (l : Fin 4) : colOf hamX i l 0 ≠ 0 := by
  fin_cases i <;> fin_cases l <;> norm_num [colOf, hamX]

theorem ham_col_determined (i : Fin 2) {w : Fin 4 → ℝ} (l : Fin 4) (hw : 0 < w l) : Determined (colOf hamX i) w := fun b hb => by
  have := hb l hw
  funext j
  rw [Subsingleton.elim j 0]
  simpa [ham_col_ne] using this

theorem ham_self (b : ℝ) (j : Fin 4) : 0 < hamW b j j := by simp [hamW, hamSame]

/-- The regression on one of the variables with a given bandwidth. -/
theorem ham_fit {b : ℝ} (hb : 0 < b) (i : Fin 2) (y β : Fin 4 → ℝ)
    (h : ∀ j, ∑ l, hamW b j l * hamX l i * (y l - hamX l i * β j) = 0) :
    ∃ S, fitVarIn .serial ⟨false, some (hamCoords, hamCoords)⟩ ⟨b, false, .Boxcar⟩ (colOf hamX i) y = .ok (β, S) := by
  obtain ⟨W, hr, hW, h0⟩ := kernelRows (m := 4) (n := 4) rfl rfl ham_mapDistance (usable_fixed (m := 4) (n := 4) hb .Boxcar _) id
  obtain rfl := kernelWeight_unique hW (hamW_kernel hb)
  unfold fitVarIn
  rw [hr]
  change ∃ S, (Res.ok (hamW b)).bind _ = _
  simp only [Res.bind]
  have hpd : ∀ j, (xtwx (colOf hamX i) (hamW b j)).PosDef := fun j =>
    (gram_posDef_iff_determined _ _ (h0 j)).2 (ham_col_determined i j (ham_self b j))
  rw [fitVarCoreIn_eq _ _ _ (ex := .serial) trivial, fitVarSerial_eq _ _ _ (fun _ => rfl), if_pos hpd]
  have : (fun j => (fitAt (colOf hamX i) y (hamW b) j).beta 0) = β := by
    funext j
    have h1 := isWLS_of_posDef (y := y) (hpd j)
    have h2 : IsWLS (colOf hamX i) y (hamW b j) fun _ => β j := wls_normal (h0 j) (ham_col_determined i j (ham_self b j)) fun m => by
      simpa [colOf] using h j
    exact congrFun (wls_unique h1 h2) 0
  rw [this]
  exact ⟨_, rfl⟩

/-- The leave-one-out score of the intercept. -/
theorem ham_score (j : ℕ) {b : ℝ} (hb : 0 < b) (y β : Fin 4 → ℝ) {v : ℝ} (hv : v = ∑ i, (y i - β i) ^ 2) (hv1 : v ≤ 100)
    (h : ∀ i, ∑ l, (if l = i then 0 else hamW b i l) * (y l - β i) = 0) :
    varCriterionIn .CV ⟨false, some (hamCoords, hamCoords)⟩ (colOf hamX 0) y ⟨b, false, .Boxcar⟩ .serial = v := by
  have h1 : ∀ l, colOf hamX 0 l 0 = 1 := fun l => by fin_cases l <;> simp [colOf, hamX]
  have hl : IsLooScore (colOf hamX 0) y (hamW b) v := by
    refine ⟨fun i _ => β i, fun i => wls_normal (fun l => by split; exacts [le_rfl, hamW_nonneg _ _ _])
      (ham_col_determined 0 (if i = 0 then 1 else if i = 1 then 0 else if i = 2 then 3 else 2) ?_) fun m => ?_, ?_⟩
    · fin_cases i <;> simp [hamW, hamSame]
    · rw [Subsingleton.elim m 0]
      simpa [h1] using h i
    · rw [hv]
      simp [residualSS, h1]
  have hv0 : 0 ≤ v := by rw [hv]; positivity
  rw [varCriterionIn, (C119_criterion .CV .serial trivial false _ _ (⟨rfl, rfl⟩ : FitsData hamCoords 4) _ _ ham_mapDistance (usable_fixed hb .Boxcar _) (hamW_kernel hb) _ _).1 v hl,
    if_pos]
  rw [abs_of_nonneg hv0]
  linarith [hundred_lt_dblMax]

theorem ham_determined {w : Fin 4 → ℝ} (p q : Fin 4) (hp : 0 < w p) (hq : 0 < w q) (hne : hamX p 1 ≠ hamX q 1) : Determined hamX w := fun b hb => by
  have h1 := hb p hp
  have h2 := hb q hq
  have e : ∀ l, hamX l 0 = 1 := fun l => by fin_cases l <;> simp [hamX]
  rw [Fin.sum_univ_two, e] at h1 h2
  have h3 : b 1 = 0 := by
    have : (hamX p 1 - hamX q 1) * b 1 = 0 := by linarith
    exact (mul_eq_zero.1 this).resolve_left (sub_ne_zero.2 hne)
  have h4 : b 0 = 0 := by rw [h3] at h1; linarith
  funext j
  fin_cases j
  · exact h4
  · exact h3

/-- The initial GWR: locally two observations do not leave enough for cross-validation of two coefficients, so that the global fit is selected. -/
theorem ham_initial : ∃ r g, gwrAutoRun .CV (fun _ => .serial) .serial ⟨false, none⟩ ⟨7, false, .Boxcar⟩ (some 1) (some 9) hamCoords hamX hamY true
    false = .ok (r, g) ∧ g.betas = fun _ => ![1 / 2, 0] := by
  have hc : FitsData hamCoords 4 := ⟨rfl, rfl⟩
  have hmax := hundred_lt_dblMax
  have hfar : ∀ b, 5 < b → gwrCriterionEx .CV ⟨false, some (hamCoords, hamCoords)⟩ hamX hamY ⟨b, false, .Boxcar⟩ .serial = 40 + 72 / 49 := by
    intro b hb
    have hb0 : 0 < b := by linarith
    have hl : IsLooScore hamX hamY (hamW b) (40 + 72 / 49) := by
      rw [hamW_far hb]
      refine ⟨![![0, 0], ![4, -2], ![4 / 7, 1 / 7], ![4 / 7, 1 / 7]], fun i => wls_normal (fun l => by split <;> norm_num) ?_ fun m => ?_, ?_⟩
      · fin_cases i
        · exact ham_determined 1 2 (by simp) (by simp) (show (-1 : ℝ) ≠ 2 by norm_num)
        · exact ham_determined 0 2 (by simp) (by simp) (show (1 : ℝ) ≠ 2 by norm_num)
        · exact ham_determined 0 1 (by simp) (by simp) (by norm_num [hamX])
        · exact ham_determined 0 1 (by simp) (by simp) (by norm_num [hamX])
      · fin_cases i <;> fin_cases m <;> simp [Fin.sum_univ_four, Fin.sum_univ_two, hamX, hamY] <;> norm_num
      · simp [residualSS, Fin.sum_univ_four, Fin.sum_univ_two, hamX, hamY]
        norm_num
    rw [(C119_criterion .CV .serial trivial false _ _ hc _ _ ham_mapDistance (usable_fixed hb0 .Boxcar _) (hamW_kernel hb0) _ _).1 _ hl, if_pos]
    rw [abs_of_nonneg (by norm_num)]
    linarith
  have hnear : ∀ b, 0 < b → b ≤ 5 → gwrCriterionEx .CV ⟨false, some (hamCoords, hamCoords)⟩ hamX hamY ⟨b, false, .Boxcar⟩ .serial = dblMax := by
    intro b hb0 hb
    refine (C119_criterion .CV .serial trivial false _ _ hc _ _ ham_mapDistance (usable_fixed hb0 .Boxcar _) (hamW_kernel hb0) _ _).2 rfl ?_
    rintro ⟨v, B, hB, -⟩
    have hd := wls_determined (fun l => by split; exacts [le_rfl, hamW_nonneg _ _ _]) (hB 0)
    have := hd ![1, 1] fun l hl => by
      rw [hamW_near hb] at hl
      fin_cases l
      · simp at hl
      · simp [Fin.sum_univ_two, hamX]
      · simp [hamSame] at hl
      · simp [hamSame] at hl
    have := congrFun this 0
    simp at this
  obtain ⟨b, hout, hb1, hb2, -, hb3⟩ := ham_search (b0 := ⟨7, false, .Boxcar⟩) rfl
    (fun j b => (true, gwrCriterionEx .CV ⟨false, some (hamCoords, hamCoords)⟩ hamX hamY b .serial)) (cn := dblMax) (cf := 40 + 72 / 49)
    (fun j b h1 h2 => by simp only [hnear b h1 h2]) (fun j b h1 => by simp only [hfar b h1]) (fun h => by rw [h] at hmax; norm_num at hmax) fun _ _ => rfl
  have hb5 : 5 < b := hb3 (by linarith)
  have hb0 : 0 < b := by linarith
  obtain ⟨W, hr, hW, h0⟩ := kernelRows (m := 4) (n := 4) rfl rfl ham_mapDistance (usable_fixed (m := 4) (n := 4) hb0 .Boxcar _) id
  obtain rfl := kernelWeight_unique hW (hamW_kernel hb0)
  have hdet : ∀ i, Determined hamX (hamW b i) := fun i => by
    rw [hamW_far hb5]; exact ham_determined 0 1 (by simp) (by simp) (by norm_num [hamX])
  obtain ⟨g, C, hg, hgw, hG⟩ := (finish_report (x := hamX) (y := hamY) (sS := true) (sC := false) (ex := .serial) h0 trivial hr).1 hdet
  refine ⟨optimize ⟨7, false, .Boxcar⟩ 1 9 (fun j b => (true, gwrCriterionEx .CV ⟨false, some (hamCoords, hamCoords)⟩ hamX hamY b .serial)) [], g,
    ?_, funext fun i => ?_⟩
  · unfold gwrAutoRun
    rw [show bindLocations ⟨false, none⟩ hamCoords hamCoords = .ok ⟨false, some (hamCoords, hamCoords)⟩ from
      bindLocations_eq_ok.2 ⟨rfl, rfl, rfl⟩]
    have hsr : gwrSearchEx .CV (fun _ => .serial) ⟨false, some (hamCoords, hamCoords)⟩ ⟨7, false, .Boxcar⟩ (some 1) (some 9) hamX hamY =
        .ok (optimize ⟨7, false, .Boxcar⟩ 1 9 (fun j b => (true, gwrCriterionEx .CV ⟨false, some (hamCoords, hamCoords)⟩ hamX hamY b .serial)) []) := by
      unfold gwrSearchEx gwrUpper
      simp only [Res.bind, Option.getD_some]
    simp only [Res.bind, hsr, hout, hg]
  · refine wls_unique (hG.regression.coefficients i) (wls_normal (h0 i) (hdet i) fun m => ?_)
    rw [hamW_far hb5]
    fin_cases m <;> simp [Fin.sum_univ_four, Fin.sum_univ_two, hamX, hamY] <;> norm_num

/-- The same object with other bandwidths and marks. -/
noncomputable def hamWith (bw : Fin 2 → BandwidthWeight) (init : Fin 2 → InitType) : MgwrSetup 4 2 := { hamSetup with bw := bw, init := init }

/-- All loops serial. -/
noncomputable def hamSerial : MgwrModes 4 2 := ⟨fun _ => .serial, .serial, fun _ _ => .serial, fun _ _ _ => .serial, fun _ _ => .serial⟩

/-- The distances of the variables. -/
noncomputable def hamD : Fin 2 → CRSDistance := fun _ => ⟨false, some (hamCoords, hamCoords)⟩

/-- The settings back-fitting reads. -/
noncomputable def hamCfg : MgwrCfg 4 2 := hamSetup.cfgIn false hamX

/-- A variable whose bandwidth is given. -/
theorem ham_given {bw : Fin 2 → BandwidthWeight} {init : Fin 2 → InitType} {s : BfState 4 2} {i : Fin 2} {b : ℝ} (it : ℕ) (hi : s.init i = .Specified)
    (hbw : s.bw i = ⟨b, false, .Boxcar⟩) (hb : 0 < b) (β : Fin 4 → ℝ)
    (h : ∀ j, ∑ l, hamW b j l * hamX l i * (partialResid hamCfg i s l - hamX l i * β j) = 0) :
    ∃ S, bfVarIn (hamWith bw init) false hamSerial hamX hamD (fun _ => (0, 0)) it i s = .ok (bfStore hamCfg i β S s) := by
  obtain ⟨S, hS⟩ := ham_fit hb i _ β h
  refine ⟨S, ?_⟩
  unfold bfVarIn
  dsimp only
  rw [if_pos hi]
  simp only [Res.bind]
  rw [hbw]
  change (fitVarIn .serial ⟨false, some (hamCoords, hamCoords)⟩ ⟨b, false, .Boxcar⟩ (colOf hamX i) (partialResid hamCfg i s)).bind _ = _
  rw [hS]
  rfl

/-- The intercept, whose bandwidth is searched. -/
theorem ham_searched {bw : Fin 2 → BandwidthWeight} {init : Fin 2 → InitType} {s : BfState 4 2} {b0 : ℝ} (it : ℕ) (hi : s.init 0 ≠ .Specified)
    (hbw : s.bw 0 = ⟨b0, false, .Boxcar⟩) {y : Fin 4 → ℝ} (hy : partialResid hamCfg 0 s = y) (βn βf : Fin 4 → ℝ)
    (hn : ∀ i, ∑ l, (if l = i then 0 else if hamSame i l then 1 else 0) * (y l - βn i) = 0)
    (hf : ∀ i, ∑ l, (if l = i then 0 else 1) * (y l - βf i) = 0) (hn1 : ∑ i, (y i - βn i) ^ 2 ≤ 100) (hf1 : ∑ i, (y i - βf i) ^ 2 ≤ 100)
    (hne : ∑ i, (y i - βn i) ^ 2 ≠ ∑ i, (y i - βf i) ^ 2) (β : Fin 4 → ℝ)
    (hβ : ∀ b, 0 < b → (∑ i, (y i - βn i) ^ 2 < ∑ i, (y i - βf i) ^ 2 → b ≤ 5) → (∑ i, (y i - βf i) ^ 2 < ∑ i, (y i - βn i) ^ 2 → 5 < b) →
      ∀ j, ∑ l, hamW b j l * hamX l 0 * (y l - hamX l 0 * β j) = 0) :
    ∃ b S, bfVarIn (hamWith bw init) false hamSerial hamX hamD (fun _ => (0, 0)) it 0 s =
        .ok (bfStore hamCfg 0 β S (bfSelect hamCfg 0 ⟨b, false, .Boxcar⟩ s)) ∧ 1 ≤ b ∧ b ≤ 9 ∧
      (∑ i, (y i - βn i) ^ 2 < ∑ i, (y i - βf i) ^ 2 → b ≤ 5) ∧ (∑ i, (y i - βf i) ^ 2 < ∑ i, (y i - βn i) ^ 2 → 5 < b) := by
  obtain ⟨b, hout, hb1, hb2, hb3, hb4⟩ := ham_search (b0 := ⟨b0, false, .Boxcar⟩) rfl
    (fun j b => (true, varCriterionIn .CV ⟨false, some (hamCoords, hamCoords)⟩ (colOf hamX 0) y b .serial))
    (cn := ∑ i, (y i - βn i) ^ 2) (cf := ∑ i, (y i - βf i) ^ 2)
    (fun j b h1 h2 => by
      rw [ham_score j h1 y βn rfl hn1]
      intro i
      rw [hamW_near h2]
      exact hn i)
    (fun j b h1 => by
      rw [ham_score j (by linarith) y βf rfl hf1]
      intro i
      rw [hamW_far h1]
      exact hf i) hne fun _ _ => rfl
  obtain ⟨S, hS⟩ := ham_fit (show 0 < b by linarith) 0 y β (hβ b (by linarith) hb3 hb4)
  refine ⟨b, S, ?_, hb1, hb2, hb3, hb4⟩
  unfold bfVarIn
  dsimp only
  rw [if_neg hi]
  have hs : ((hamWith bw init).searchIn hamX hamD (fun _ => (0, 0)) 0 (partialResid hamCfg 0 s) (s.bw 0) (hamSerial.search it 0)).out =
      .ok ⟨b, false, .Boxcar⟩ := by
    rw [hy, hbw, ← hout]
    rfl
  change (((hamWith bw init).searchIn hamX hamD (fun _ => (0, 0)) 0 (partialResid hamCfg 0 s) (s.bw 0) (hamSerial.search it 0)).out.bind _).bind _ = _
  rw [hs]
  simp only [Res.bind]
  have hbs : (bfSelect hamCfg 0 ⟨b, false, .Boxcar⟩ s).bw 0 = ⟨b, false, .Boxcar⟩ := by
    unfold bfSelect
    dsimp only
    split
    · simp
    · split <;> simp
  change (fitVarIn .serial ⟨false, some (hamCoords, hamCoords)⟩ ((bfSelect hamCfg 0 ⟨b, false, .Boxcar⟩ s).bw 0) (colOf hamX 0)
    (partialResid hamCfg 0 s)).bind _ = _
  rw [hbs, hy, hS]
  rfl

/-- A whole fit, once the loops of back-fitting are known. -/
theorem ham_run {bw : Fin 2 → BandwidthWeight} {init : Fin 2 → InitType} (hinit : ∀ i, init i ≠ .Null) {P : BfState 4 2 → Prop}
    (h : ∀ s : BfState 4 2, s.betas = (fun _ => ![1 / 2, 0]) → s.resid = (fun j => hamY j - 1 / 2) → s.init = init → s.bw = bw → s.changeNo = 0 →
      ∃ r, bfLoopIn (hamWith bw init) false hamSerial hamX hamD (fun _ => (0, 0)) 2 0 true 3 s = .ok r ∧ P r.1) :
    ∃ o s, mgwrRunIn (hamWith bw init) false hamSerial = .ok o ∧ P s ∧ o.out.betas = s.betas ∧ o.out.bw = s.bw ∧ o.out.init = s.init := by
  obtain ⟨rs, g, hg, hB⟩ := ham_initial
  have hx : centrePredictors (hamWith bw init).hasIntercept (hamWith bw init).centred (hamWith bw init).x = hamX := by
    ext j i
    simp [centrePredictors, hamWith, hamSetup]
  have h2 : (Res.tabulate 2 fun i => bindLocations ((hamWith bw init).dist i) (hamWith bw init).coords (hamWith bw init).coords) = .ok hamD :=
    Res.tabulate_eq_ok.2 fun i => bindLocations_eq_ok.2 ⟨rfl, rfl, rfl⟩
  have h3 : (Res.tabulate 2 fun i => mgwrDistRange ((hamWith bw init).init i) (hamD i)) = .ok fun _ => (0, 0) :=
    Res.tabulate_eq_ok.2 fun i => by rw [mgwrDistRange, if_neg]; exact hinit i
  have h4 : ∀ s : Fin 2 → Res BandwidthWeight,
      (Res.tabulate 2 fun i => if (hamWith bw init).init i = .Null then s i else .ok ((hamWith bw init).bw i)) = .ok bw :=
    fun s => Res.tabulate_eq_ok.2 fun i => if_neg (hinit i)
  have hres : ∀ j, hamY j - fitted hamX g.betas j = hamY j - 1 / 2 := fun j => by
    rw [hB]
    fin_cases j <;> simp [fitted, Fin.sum_univ_two, hamX]
  obtain ⟨r, hr, hP⟩ := h (bfInitIn (hamWith bw init) hamX g bw) hB (funext hres) rfl rfl rfl
  have hbf : backfittingIn (hamWith bw init) false hamSerial hamX hamD (fun _ => (0, 0)) (bfInitIn (hamWith bw init) hamX g bw) = .ok r := by
    unfold backfittingIn
    have hgo : decide (dblMax > (hamWith bw init).critThreshold) = true := by
      simp only [hamWith, hamSetup, gt_iff_lt, decide_eq_true_eq]
      linarith [hundred_lt_dblMax]
    have hrss : rss hamX (hamWith bw init).y (bfInitIn (hamWith bw init) hamX g bw).betas = 3 := by
      change ∑ i, (hamY i - fitted hamX g.betas i) * (hamY i - fitted hamX g.betas i) = 3
      simp only [hres]
      simp [Fin.sum_univ_four, hamY]
      norm_num
    rw [hgo, hrss]
    exact hr
  unfold mgwrRunIn
  dsimp only
  rw [hx, dif_pos (by norm_num)]
  simp only [Res.bind]
  have : gwrAutoRun ((hamWith bw init).approach ⟨0, by norm_num⟩) hamSerial.search0 hamSerial.fit0 (hamWith bw init).dist0 (hamWith bw init).bw0
      (hamWith bw init).lower (hamWith bw init).upper (hamWith bw init).coords hamX (hamWith bw init).y (false || decide (4 < 8192)) false = .ok (rs, g) := hg
  rw [this]
  simp only
  rw [h2]
  simp only
  rw [h3]
  simp only
  rw [h4]
  simp only
  rw [hbf]
  exact ⟨_, r.1, rfl, hP, rfl, rfl, rfl⟩

/-- What the proofs below follow: the coefficients and, with them, the residuals. -/
def HamAt (s : BfState 4 2) (a b : Fin 4 → ℝ) : Prop :=
  (∀ j, s.betas j 0 = a j) ∧ (∀ j, s.betas j 1 = b j) ∧ ∀ j, s.resid j = hamY j - fitted hamX s.betas j

theorem HamAt.partial0 {s : BfState 4 2} {a b : Fin 4 → ℝ} (h : HamAt s a b) : partialResid hamCfg 0 s = fun j => hamY j - b j * hamX j 1 := by
  funext j
  have e : hamX j 0 = 1 := by fin_cases j <;> simp [hamX]
  change s.resid j + s.betas j 0 * hamX j 0 = _
  rw [h.2.2, fitted, Fin.sum_univ_two, h.1, h.2.1, e]
  ring

theorem HamAt.partial1 {s : BfState 4 2} {a b : Fin 4 → ℝ} (h : HamAt s a b) : partialResid hamCfg 1 s = fun j => hamY j - a j := by
  funext j
  have e : hamX j 0 = 1 := by fin_cases j <;> simp [hamX]
  change s.resid j + s.betas j 1 * hamX j 1 = _
  rw [h.2.2, fitted, Fin.sum_univ_two, h.1, h.2.1, e]
  ring

theorem HamAt.store0 {s : BfState 4 2} {a b : Fin 4 → ℝ} (h : HamAt s a b) (β : Fin 4 → ℝ) (S : Matrix (Fin 4) (Fin 4) ℝ) :
    HamAt (bfStore hamCfg 0 β S s) β b :=
  ⟨fun j => by simp [bfStore], fun j => by simp [bfStore, h.2.1], fun j => rfl⟩

theorem HamAt.store1 {s : BfState 4 2} {a b : Fin 4 → ℝ} (h : HamAt s a b) (β : Fin 4 → ℝ) (S : Matrix (Fin 4) (Fin 4) ℝ) :
    HamAt (bfStore hamCfg 1 β S s) a β :=
  ⟨fun j => by simp [bfStore, h.1], fun j => by simp [bfStore], fun j => rfl⟩

theorem HamAt.select {s : BfState 4 2} {a b : Fin 4 → ℝ} (h : HamAt s a b) (i : Fin 2) (w : BandwidthWeight) : HamAt (bfSelect hamCfg i w s) a b := by
  unfold bfSelect
  dsimp only
  split
  · exact h
  · split <;> exact h

theorem HamAt.rss {s : BfState 4 2} {a b : Fin 4 → ℝ} (h : HamAt s a b) : rss hamX hamY s.betas = ∑ j, (hamY j - (a j + b j * hamX j 1)) ^ 2 := by
  refine Finset.sum_congr rfl fun j _ => ?_
  have e : hamX j 0 = 1 := by fin_cases j <;> simp [hamX]
  rw [fitted, Fin.sum_univ_two, h.1, h.2.1, e]
  ring

theorem ham_loop {bw : Fin 2 → BandwidthWeight} {init : Fin 2 → InitType} {s0 s1 s2 s3 s4 : BfState 4 2}
    (h1 : bfVarIn (hamWith bw init) false hamSerial hamX hamD (fun _ => (0, 0)) 0 0 s0 = .ok s1)
    (h2 : bfVarIn (hamWith bw init) false hamSerial hamX hamD (fun _ => (0, 0)) 0 1 s1 = .ok s2)
    (hg : rss hamX hamY s2.betas < 3)
    (h3 : bfVarIn (hamWith bw init) false hamSerial hamX hamD (fun _ => (0, 0)) 1 0 s2 = .ok s3)
    (h4 : bfVarIn (hamWith bw init) false hamSerial hamX hamD (fun _ => (0, 0)) 1 1 s3 = .ok s4) :
    bfLoopIn (hamWith bw init) false hamSerial hamX hamD (fun _ => (0, 0)) 2 0 true 3 s0 = .ok (s4, rss hamX hamY s4.betas) := by
  have hfr : List.finRange 2 = [0, 1] := rfl
  have hc : bfContinue (hamWith bw init).critType (hamWith bw init).critThreshold 3 (rss hamX (hamWith bw init).y s2.betas) = true := by
    change decide (|rss hamX hamY s2.betas - 3| > 0) = true
    rw [decide_eq_true_eq]
    exact abs_pos.2 (by linarith)
  rw [bfLoopIn, if_neg (by simp), hfr]
  simp only [bfVarsIn, h1, h2, Res.bind]
  rw [hc, bfLoopIn, if_neg (by simp), hfr]
  simp only [bfVarsIn, h3, h4, Res.bind]
  rw [bfLoopIn]
  rfl

theorem ham_near_fit {b : ℝ} (hb : b ≤ 5) (i : Fin 2) (y β : Fin 4 → ℝ)
    (h : ∀ j, ∑ l, (if hamSame j l then 1 else 0) * hamX l i * (y l - hamX l i * β j) = 0) (j : Fin 4) :
    ∑ l, hamW b j l * hamX l i * (y l - hamX l i * β j) = 0 := by
  rw [hamW_near hb]; exact h j

theorem ham_select {s : BfState 4 2} {b b0 : ℝ} (hbw : s.bw 0 = ⟨b0, false, .Boxcar⟩) (hb : |b - b0| ≤ 10) :
    (bfSelect hamCfg 0 ⟨b, false, .Boxcar⟩ s).bw = Function.update s.bw 0 ⟨b, false, .Boxcar⟩ ∧
    (bfSelect hamCfg 0 ⟨b, false, .Boxcar⟩ s).changeNo = Function.update s.changeNo 0 (s.changeNo 0 + 1) ∧
    (bfSelect hamCfg 0 ⟨b, false, .Boxcar⟩ s).init = if 2 ≤ s.changeNo 0 + 1 then Function.update s.init 0 .Specified else s.init := by
  have ht : ¬ |b - (s.bw 0).mBandwidth| > hamCfg.threshold 0 := by rw [hbw]; exact not_lt.2 hb
  have hr : hamCfg.retry = 2 := rfl
  unfold bfSelect
  dsimp only
  rw [if_neg ht]
  by_cases h : 2 ≤ s.changeNo 0 + 1
  · rw [if_pos (by simpa [hr] using h), if_pos h]; exact ⟨rfl, rfl, rfl⟩
  · rw [if_neg (by simpa [hr] using h), if_neg h]; exact ⟨rfl, rfl, rfl⟩

/-- The first fit. -/
theorem ham_first : ∃ o, mgwrRunIn hamSetup false hamSerial = .ok o ∧ o.out.betas 2 0 = 1 / 2 ∧ o.out.init = (fun _ => .Specified) ∧
    ∃ b, 1 ≤ b ∧ b ≤ 5 ∧ o.out.bw = ![⟨b, false, .Boxcar⟩, ⟨3, false, .Boxcar⟩] := by
  obtain ⟨o, s, h1, ⟨h2, h3, h4⟩, e1, e2, e3⟩ := ham_run (bw := hamSetup.bw) (init := hamSetup.init) (fun i => by fin_cases i <;> simp [hamSetup])
    (P := fun s => s.betas 2 0 = 1 / 2 ∧ s.init = (fun _ => .Specified) ∧
      ∃ b, 1 ≤ b ∧ b ≤ 5 ∧ s.bw = ![⟨b, false, .Boxcar⟩, ⟨3, false, .Boxcar⟩]) (by
    intro s hB hR hI hW hC
    have a0 : HamAt s (fun _ => 1 / 2) (fun _ => 0) := by
      refine ⟨fun j => by rw [hB]; rfl, fun j => by rw [hB]; rfl, fun j => ?_⟩
      rw [hR, hB]
      fin_cases j <;> simp [fitted, Fin.sum_univ_two, hamX]
    have y0 : partialResid hamCfg 0 s = ![2, 0, 0, 0] := by
      rw [a0.partial0]
      funext j
      fin_cases j <;> simp [hamY]
    obtain ⟨b1, S1, k1, l1, u1, -, v1⟩ := ham_searched (bw := hamSetup.bw) (init := hamSetup.init) (b0 := 7) 0 (by rw [hI]; simp [hamSetup]) (by rw [hW]; rfl)
      y0 ![0, 2, 0, 0] ![0, 2 / 3, 2 / 3, 2 / 3]
      (fun i => by fin_cases i <;> simp [Fin.sum_univ_four, hamSame])
      (fun i => by fin_cases i <;> simp [Fin.sum_univ_four] <;> norm_num)
      (by simp [Fin.sum_univ_four]; norm_num) (by simp [Fin.sum_univ_four]; norm_num) (by simp [Fin.sum_univ_four]; norm_num) (fun _ => 1 / 2)
      (fun b _ _ hb j => by
        rw [hamW_far (hb (by simp [Fin.sum_univ_four]; norm_num))]
        fin_cases j <;> simp [Fin.sum_univ_four, hamX] <;> norm_num)
    obtain ⟨w1, c1, i1⟩ := ham_select (s := s) (b := b1) (b0 := 7) (by rw [hW]; rfl) (abs_le.2 ⟨by linarith, by linarith⟩)
    rw [hC, if_neg (by simp)] at i1
    have a1 := (a0.select 0 ⟨b1, false, .Boxcar⟩).store0 (fun _ => 1 / 2) S1
    obtain ⟨S2, k2⟩ := ham_given (bw := hamSetup.bw) (init := hamSetup.init) (i := 1) (b := 3) 0
      (s := bfStore hamCfg 0 (fun _ => 1 / 2) S1 (bfSelect hamCfg 0 ⟨b1, false, .Boxcar⟩ s))
      (by simp only [bfStore]; rw [i1, hI]; rfl) (by simp only [bfStore]; rw [w1, hW]; rfl) (by norm_num) ![1, 1, -1 / 4, -1 / 4]
      (ham_near_fit (by norm_num) 1 _ _ fun j => by
        rw [a1.partial1]
        fin_cases j <;> simp [Fin.sum_univ_four, hamX, hamY, hamSame] <;> norm_num)
    have a2 := a1.store1 ![1, 1, -1 / 4, -1 / 4] S2
    have g2 : rss hamX hamY (bfStore hamCfg 1 ![1, 1, -1 / 4, -1 / 4] S2
        (bfStore hamCfg 0 (fun _ => 1 / 2) S1 (bfSelect hamCfg 0 ⟨b1, false, .Boxcar⟩ s))).betas < 3 := by
      rw [a2.rss]
      simp [Fin.sum_univ_four, hamX, hamY]
      norm_num
    set s2 := bfStore hamCfg 1 ![1, 1, -1 / 4, -1 / 4] S2 (bfStore hamCfg 0 (fun _ => 1 / 2) S1 (bfSelect hamCfg 0 ⟨b1, false, .Boxcar⟩ s)) with hs2
    have e_i : s2.init = hamSetup.init := by rw [hs2]; simp only [bfStore]; rw [i1, hI]
    have e_w : s2.bw = Function.update hamSetup.bw 0 ⟨b1, false, .Boxcar⟩ := by rw [hs2]; simp only [bfStore]; rw [w1, hW]
    have e_c : s2.changeNo 0 = 1 := by rw [hs2]; simp only [bfStore]; rw [c1, hC]; simp
    have y2 : partialResid hamCfg 0 s2 = ![1, 1, 1 / 2, 1 / 2] := by
      rw [a2.partial0]
      funext j
      fin_cases j <;> simp [hamY, hamX] <;> norm_num
    obtain ⟨b3, S3, k3, l3, u3, v3, -⟩ := ham_searched (bw := hamSetup.bw) (init := hamSetup.init) (b0 := b1) 1 (by rw [e_i]; simp [hamSetup])
      (by rw [e_w]; rfl) y2 ![1, 1, 1 / 2, 1 / 2] ![2 / 3, 2 / 3, 5 / 6, 5 / 6]
      (fun i => by fin_cases i <;> simp [Fin.sum_univ_four, hamSame])
      (fun i => by fin_cases i <;> simp [Fin.sum_univ_four] <;> norm_num)
      (by simp [Fin.sum_univ_four]) (by simp [Fin.sum_univ_four]; norm_num) (by simp [Fin.sum_univ_four]; norm_num) ![1, 1, 1 / 2, 1 / 2]
      (fun b _ hb _ j => by
        rw [hamW_near (hb (by simp [Fin.sum_univ_four]; norm_num))]
        fin_cases j <;> simp [Fin.sum_univ_four, hamX, hamSame] <;> norm_num)
    have v3' : b3 ≤ 5 := v3 (by simp [Fin.sum_univ_four]; norm_num)
    obtain ⟨w3, c3, i3⟩ := ham_select (s := s2) (b := b3) (b0 := b1) (by rw [e_w]; rfl) (abs_le.2 ⟨by linarith, by linarith⟩)
    rw [e_c, if_pos (by norm_num)] at i3
    have a3 := (a2.select 0 ⟨b3, false, .Boxcar⟩).store0 ![1, 1, 1 / 2, 1 / 2] S3
    obtain ⟨S4, k4⟩ := ham_given (bw := hamSetup.bw) (init := hamSetup.init) (i := 1) (b := 3) 1
      (s := bfStore hamCfg 0 ![1, 1, 1 / 2, 1 / 2] S3 (bfSelect hamCfg 0 ⟨b3, false, .Boxcar⟩ s2))
      (by simp only [bfStore]; rw [i3, e_i]; rfl) (by simp only [bfStore]; rw [w3, e_w]; rfl) (by norm_num) ![1, 1, -1 / 4, -1 / 4]
      (ham_near_fit (by norm_num) 1 _ _ fun j => by
        rw [a3.partial1]
        fin_cases j <;> simp [Fin.sum_univ_four, hamX, hamY, hamSame] <;> norm_num)
    refine ⟨_, ham_loop k1 k2 g2 k3 k4, ?_, ?_, b3, l3, v3', ?_⟩
    · exact (a3.store1 ![1, 1, -1 / 4, -1 / 4] S4).1 2
    · simp only [bfStore]
      rw [i3, e_i]
      funext i
      fin_cases i <;> rfl
    · simp only [bfStore]
      rw [w3, e_w]
      funext i
      fin_cases i <;> rfl)
  refine ⟨o, h1, by rw [e1]; exact h2, by rw [e3]; exact h3, ?_⟩
  rw [e2]
  exact h4

/-- The second fit. -/
theorem ham_second {b : ℝ} (hb0 : 1 ≤ b) (hb : b ≤ 5) : ∃ o, mgwrRunIn (hamWith ![⟨b, false, .Boxcar⟩, ⟨3, false, .Boxcar⟩] fun _ => .Specified) false
    hamSerial = .ok o ∧ o.out.betas 2 0 = 0 := by
  obtain ⟨o, s, h1, h2, e1, -, -⟩ := ham_run (bw := ![⟨b, false, .Boxcar⟩, ⟨3, false, .Boxcar⟩]) (init := fun _ => .Specified) (fun i => by simp)
    (P := fun s => s.betas 2 0 = 0) (by
    intro s hB hR hI hW hC
    have a0 : HamAt s (fun _ => 1 / 2) (fun _ => 0) := by
      refine ⟨fun j => by rw [hB]; rfl, fun j => by rw [hB]; rfl, fun j => ?_⟩
      rw [hR, hB]
      fin_cases j <;> simp [fitted, Fin.sum_univ_two, hamX]
    have bp : 0 < b := by linarith
    obtain ⟨S1, k1⟩ := ham_given (bw := ![⟨b, false, .Boxcar⟩, ⟨3, false, .Boxcar⟩]) (init := fun _ => .Specified) (s := s) (i := 0) (b := b) 0
      (by rw [hI]) (by rw [hW]; rfl) bp ![1, 1, 0, 0]
      (ham_near_fit hb 0 _ _ fun j => by
        rw [a0.partial0]
        fin_cases j <;> simp [Fin.sum_univ_four, hamX, hamY, hamSame] <;> norm_num)
    have a1 := a0.store0 ![1, 1, 0, 0] S1
    obtain ⟨S2, k2⟩ := ham_given (bw := ![⟨b, false, .Boxcar⟩, ⟨3, false, .Boxcar⟩]) (init := fun _ => .Specified)
      (s := bfStore hamCfg 0 ![1, 1, 0, 0] S1 s) (i := 1) (b := 3) 0 (by simp only [bfStore]; rw [hI]) (by simp only [bfStore]; rw [hW]; rfl)
      (by norm_num) ![1, 1, 0, 0]
      (ham_near_fit (by norm_num) 1 _ _ fun j => by
        rw [a1.partial1]
        fin_cases j <;> simp [Fin.sum_univ_four, hamX, hamY, hamSame] <;> norm_num)
    have a2 := a1.store1 ![1, 1, 0, 0] S2
    have g2 : rss hamX hamY (bfStore hamCfg 1 ![1, 1, 0, 0] S2 (bfStore hamCfg 0 ![1, 1, 0, 0] S1 s)).betas < 3 := by
      rw [a2.rss]
      simp [Fin.sum_univ_four, hamX, hamY]
      norm_num
    obtain ⟨S3, k3⟩ := ham_given (bw := ![⟨b, false, .Boxcar⟩, ⟨3, false, .Boxcar⟩]) (init := fun _ => .Specified)
      (s := bfStore hamCfg 1 ![1, 1, 0, 0] S2 (bfStore hamCfg 0 ![1, 1, 0, 0] S1 s)) (i := 0) (b := b) 1
      (by simp only [bfStore]; rw [hI]) (by simp only [bfStore]; rw [hW]; rfl) bp ![1, 1, 0, 0]
      (ham_near_fit hb 0 _ _ fun j => by
        rw [a2.partial0]
        fin_cases j <;> simp [Fin.sum_univ_four, hamX, hamY, hamSame] <;> norm_num)
    have a3 := a2.store0 ![1, 1, 0, 0] S3
    obtain ⟨S4, k4⟩ := ham_given (bw := ![⟨b, false, .Boxcar⟩, ⟨3, false, .Boxcar⟩]) (init := fun _ => .Specified)
      (s := bfStore hamCfg 0 ![1, 1, 0, 0] S3 (bfStore hamCfg 1 ![1, 1, 0, 0] S2 (bfStore hamCfg 0 ![1, 1, 0, 0] S1 s))) (i := 1) (b := 3) 1
      (by simp only [bfStore]; rw [hI]) (by simp only [bfStore]; rw [hW]; rfl) (by norm_num) ![1, 1, 0, 0]
      (ham_near_fit (by norm_num) 1 _ _ fun j => by
        rw [a3.partial1]
        fin_cases j <;> simp [Fin.sum_univ_four, hamX, hamY, hamSame] <;> norm_num)
    exact ⟨_, ham_loop k1 k2 g2 k3 k4, (a3.store1 ![1, 1, 0, 0] S4).1 2⟩)
  exact ⟨o, h1, by rw [e1]; exact h2⟩

/-- **C136 (refuted in general).** The claim fails when bandwidths are searched: for four observations at two places, two serial fits of the same object
in a row both succeed, but the intercept at the third observation is 1/2 after the first fit and 0 after the second one. -/
theorem C136_second_fit_differs : ∃ o₁ o₂, mgwrFits false hamSetup [hamSerial, hamSerial] = .ok [o₁, o₂] ∧ o₁.out.betas 2 0 = 1 / 2 ∧
    o₂.out.betas 2 0 = 0 := by
  obtain ⟨o₁, h1, hb1, hi, b, hb, hb5, hw⟩ := ham_first
  obtain ⟨o₂, h2, hb2⟩ := ham_second hb hb5
  have h2' : mgwrRunIn (hamSetup.after o₁.out) false hamSerial = .ok o₂ := by
    rw [C136_second_fit hamSetup false hamSerial hamSerial o₁ h1, hi, hw]
    exact h2
  refine ⟨o₁, o₂, ?_, hb1, hb2⟩
  simp only [mgwrFits, h1, h2', Res.bind]

/-- Given bandwidths: three fits, the same report three times. -/
example : ∃ o, mgwrFits false (hamWith ![⟨2, false, .Boxcar⟩, ⟨3, false, .Boxcar⟩] fun _ => .Specified) [hamSerial, hamSerial, hamSerial] = .ok [o, o, o] ∧
    o.out.betas 2 0 = 0 := by
  obtain ⟨o, h, hb⟩ := ham_second (b := 2) (by norm_num) (by norm_num)
  exact ⟨o, C136_refit_partial _ false hamSerial (fun _ => rfl) o h 3, hb⟩

/-- Searched and given bandwidth: the given one is kept in both fits. -/
example : ∃ o₁ o₂, mgwrFits false hamSetup [hamSerial, hamSerial] = .ok [o₁, o₂] ∧ o₁.out.bw 1 = ⟨3, false, .Boxcar⟩ ∧ o₂.out.bw 1 = ⟨3, false, .Boxcar⟩ := by
  obtain ⟨o₁, o₂, h, -, -⟩ := C136_second_fit_differs
  have := C136_settled_kept false _ _ _ h 1 rfl
  exact ⟨o₁, o₂, h, (this o₁ (by simp)).2, (this o₂ (by simp)).2⟩

example : ∃ o, mgwrRunIn hamSetup false hamSerial = .ok o ∧ o.out.bw 1 = ⟨3, false, .Boxcar⟩ := by
  obtain ⟨o, h, -⟩ := ham_first
  exact ⟨o, h, (C136_given_kept _ _ _ o h 1 rfl).2⟩

end Verif.Props

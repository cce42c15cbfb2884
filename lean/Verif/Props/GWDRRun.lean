import Verif.Model.GWDRRun
import Verif.Spec.Density
import Verif.Props.RobustRun
import Verif.Props.GWRSelect

/-! Whole runs of density regression (C112, C113, C114). -/

namespace Verif.Props
open Verif Verif.Model Verif.Spec Matrix Classical

variable {n k d m : ℕ}

theorem gwdrDist_ok (c : Fin n → ℝ) (i : Fin n) :
    ((gwdrDistance c).distance i).bind (fun l => rowToVec l n) = .ok fun l => |c l - c i| := by
  have e : gwdrDistance c = ⟨some (List.ofFn c, List.ofFn c)⟩ := rfl
  rw [e]
  simp only [OneDimDistance.distance, List.length_ofFn, i.isLt, dif_pos, Res.bind, rowToVec, List.length_map, List.getElem_map, List.getElem_ofFn]

theorem gwdrWeightVector_eq (b : BandwidthWeight) (c : Fin n → ℝ) (i : Fin n) : gwdrWeightVector b c i = b.weight fun l => |c l - c i| := by
  have := gwdrDist_ok c i
  unfold gwdrWeightVector
  obtain ⟨l, hl, h⟩ := Res.bind_eq_ok'.1 this
  rw [hl]
  simp only [Res.bind, h]

theorem gwdrWeights_ok {bws : Fin d → BandwidthWeight} {coords : Matrix (Fin n) (Fin d) ℝ} {D : Fin n → List (Fin n → ℝ)} :
    gwdrWeights bws coords = .ok D ↔
      ∃ w : Fin d → Fin n → Fin n → ℝ, (∀ m i, (bws m).weight (fun l => |coords l m - coords i m|) = .ok (w m i)) ∧
        D = fun i => List.ofFn fun m => w m i := by
  unfold gwdrWeights
  rw [Res.tabulate_eq_ok]
  constructor
  · intro h
    have h' : ∀ i, ∃ w : Fin d → Fin n → ℝ, (∀ m, (bws m).weight (fun l => |coords l m - coords i m|) = .ok (w m)) ∧ D i = List.ofFn w := by
      intro i
      obtain ⟨w, hw, e⟩ := Res.bind_eq_ok'.1 (h i)
      rw [Res.tabulate_eq_ok] at hw
      exact ⟨w, fun m => by rw [← gwdrWeightVector_eq]; exact hw m, (Res.ok.inj e).symm⟩
    choose w hw hD using h'
    exact ⟨fun m i => w i m, fun m i => hw i m, funext hD⟩
  · rintro ⟨w, hw, rfl⟩ i
    refine Res.bind_eq_ok'.2 ⟨fun m => w m i, ?_, rfl⟩
    rw [Res.tabulate_eq_ok]
    intro m
    rw [gwdrWeightVector_eq]
    exact hw m i

theorem axis_weight {b : BandwidthWeight} {c : Fin n → ℝ} (hb : UsableBandwidth b c) {w : Fin n → Fin n → ℝ}
    (h : ∀ i, b.weight (fun l => |c l - c i|) = .ok (w i)) : IsAxisWeight b c w ∧ ∀ i l, 0 ≤ w i l := by
  obtain ⟨bw, ad, kernel⟩ := b
  obtain ⟨h0, ha⟩ := hb
  simp only at h0 ha
  unfold IsAxisWeight
  cases ad with
  | false =>
    have e : ∀ i, w i = fun l => kernelFormula kernel bw |c l - c i| := fun i => by
      have := h i
      rw [C97_fixed_kernel_formula _ _ h0] at this
      exact (Res.ok.inj this).symm
    simp only [Bool.false_eq_true, if_false]
    exact ⟨fun i l => by rw [e], fun i l => by rw [e]; exact kernelFormula_nonneg kernel h0 _⟩
  | true =>
    obtain ⟨q, rfl, h2, h3, hr⟩ := ha rfl
    have h1 : 1 ≤ q := by have : (0 : ℝ) < q := h0; exact_mod_cast this
    have e : ∀ i, ∃ r, IsKthSmallest (fun l => |c l - c i|) q r ∧ w i = fun l => kernelFormula kernel r |c l - c i| := fun i => by
      have hk := sorted_get_isKth (fun l => |c l - c i|) h1 h2.le
      refine ⟨_, hk, ?_⟩
      have := h i
      rw [C97_adaptive_kernel_formula kernel _ q _ h1 h2 h3 hk (hr i _ hk)] at this
      exact (Res.ok.inj this).symm
    simp only [if_true]
    refine ⟨fun i => ?_, fun i l => ?_⟩
    · obtain ⟨r, hk, e⟩ := e i
      exact ⟨q, r, rfl, hk, fun l => by rw [e]⟩
    · obtain ⟨r, hk, e⟩ := e i
      rw [e]; exact kernelFormula_nonneg kernel (hr i r hk) _

theorem gwdrEscape_ok {ex : Exec n} {r : Res α} {a : α} : gwdrEscape ex r = .ok a ↔ r = .ok a := by
  cases ex <;> cases r <;> simp [gwdrEscape]

theorem dim_prod (w : Fin d → Fin n → Fin n → ℝ) :
    (fun i l => (((fun i => List.ofFn fun m => w m i) i).map fun w => w l).prod : Fin n → Fin n → ℝ) = fun i l => ∏ m, w m i l := by
  funext i l
  rw [List.map_ofFn, List.prod_ofFn]; rfl

theorem gwdrOmp_eq {x : Matrix (Fin n) (Fin k) ℝ} {y : Fin n → ℝ} {D : Fin n → List (Fin n → ℝ)} (hD : ∀ i, ∀ w ∈ D i, ∀ l, 0 ≤ w l)
    (hdet : ∀ i, Determined x (fun l => ((D i).map fun w => w l).prod)) (sS : Bool) {T : ℕ} {evs : List (OmpEv (Fin n) (Fin T))}
    (hs : Schedule (workRange n 0 n) evs) :
    gwdrFitOmp x y D sS NoStop evs = fitCoreOmp x y (fun i l => ((D i).map fun w => w l).prod) 0 sS false NoStop evs := by
  have hdw : (fun i l => ((D i).map fun w => w l).prod : Fin n → Fin n → ℝ) = fun i => dimWeight (D i) := by
    funext i l; rw [dimWeight_prod]
  have hdet' : ∀ i, Determined x (dimWeight (D i)) := fun i => by have := hdet i; rwa [show (fun l => ((D i).map fun w => w l).prod) = dimWeight (D i) from congrFun hdw i] at this
  rw [hdw]
  have hok : ∀ i, localFit x y (dimWeight (D i)) (x i) = .ok (fitAt x y (fun i => dimWeight (D i)) i) := fun i =>
    localFit_fitAt (W := fun i => dimWeight (D i)) ((gram_posDef_iff_determined x _ fun l => dimWeight_nonneg (hD i) l).2 (hdet' i))
  have hok' : ∀ i, localFitInv x y (dimWeight (D i)) (x i) = .ok (fitAt x y (fun i => dimWeight (D i)) i) := fun i => by
    rw [localFitInv_eq x y _ _ fun l => dimWeight_nonneg (hD i) l]; exact hok i
  obtain ⟨a1, a2, a3⟩ := omp_ok (g := quiet fun i => localFitInv x y (dimWeight (D i)) (x i))
    (upd := quietUpd (fitUpdOmp (T := T) 0 sS false)) (stop := NoStop) (fun _ => rfl)
    (fun i => some (fitAt x y (fun i => dimWeight (D i)) i)) (FitAccOmp.zero : FitAccOmp n k T) hs (fun i _ => by simp only [quiet, hok'])
  obtain ⟨b1, b2, b3⟩ := omp_ok (g := fun i => localFit x y (dimWeight (D i)) (x i))
    (upd := fitUpdOmp (T := T) 0 sS false) (stop := NoStop) (fun _ => rfl)
    (fun i => fitAt x y (fun i => dimWeight (D i)) i) (FitAccOmp.zero : FitAccOmp n k T) hs (fun i _ => hok i)
  have e : (ompRun (quiet fun i => localFitInv x y (dimWeight (D i)) (x i)) (quietUpd (fitUpdOmp (T := T) 0 sS false)) NoStop evs FitAccOmp.zero).st =
      (ompRun (fun i => localFit x y (dimWeight (D i)) (x i)) (fitUpdOmp (T := T) 0 sS false) NoStop evs FitAccOmp.zero).st := by
    rw [a3, b3]; rfl
  unfold gwdrFitOmp fitCoreOmp
  simp only [a1, a2, b1, b2, if_true, e]

theorem gwdrFitEx_explicit {x : Matrix (Fin n) (Fin k) ℝ} {y : Fin n → ℝ} {w : Fin d → Fin n → Fin n → ℝ} (hw : ∀ m i l, 0 ≤ w m i l) {sS : Bool}
    {ex : Exec n} (hex : ex.Valid) (hdet : ex ≠ .serial → ∀ i, Determined x fun l => ∏ m, w m i l) {a : FitAcc n k}
    (h : gwdrFitEx x y (fun i => List.ofFn fun m => w m i) sS ex = .ok a) :
    ∃ C, ExplicitFit x y (fun i l => ∏ m, w m i l) a C := by
  have hD : ∀ i, ∀ u ∈ (fun i => List.ofFn fun m => w m i : Fin n → List (Fin n → ℝ)) i, ∀ l, 0 ≤ u l := by
    intro i u hu l
    obtain ⟨m, rfl⟩ := List.mem_ofFn.1 hu
    exact hw m i l
  have hW : ∀ i l, 0 ≤ (fun i l => ∏ m, w m i l : Fin n → Fin n → ℝ) i l := fun i l => Finset.prod_nonneg fun m _ => hw m i l
  cases ex with
  | serial =>
    unfold gwdrFitEx at h
    obtain ⟨⟨a', t⟩, h1, h2⟩ := Res.bind_eq_ok'.1 h
    cases Res.ok.inj h2
    rw [C54_fit_is_gwr x y _ hD, dim_prod] at h1
    have ht : t = false := serialFor_nostop _ _ _ h1
    subst ht
    exact serialFit_explicit hW h1
  | omp evs =>
    unfold gwdrFitEx at h
    obtain ⟨⟨a', t⟩, h1, h2⟩ := Res.bind_eq_ok'.1 h
    cases Res.ok.inj h2
    have hs : Schedule (workRange n 0 n) evs := by rw [workRange_all]; exact hex
    have hd := hdet (by simp)
    have := gwdrOmp_eq (y := y) hD (by intro i; have := hd i; rwa [← congrFun (dim_prod w) i] at this) sS hs
    rw [dim_prod] at this
    rw [show (fun _ : ℕ => false) = NoStop from rfl, this] at h1
    obtain ⟨b, hb⟩ := (C21_fit_succeeds_iff x y _ hW sS false).1.2 hd
    obtain ⟨a'', e, e1, e2, e3, e4, -⟩ := (C27_fit_parallel_eq_serial x y _ 0 n sS false evs hs).1 b hb
    have : a' = a'' := congrArg Prod.fst (Res.ok.inj (h1.symm.trans e))
    subst this
    obtain ⟨C, hC⟩ := serialFit_explicit hW hb
    exact ⟨C, by rw [e1]; exact hC.local_, by rw [e2]; exact hC.se, by rw [e3]; exact hC.trace, by rw [e3]; exact hC.trace2, by rw [e4]; exact hC.qdiag, by rw [e1]; exact hC.linear⟩

/-- **C112.** A completed fit with given bandwidths reports the coefficients, diagnostics and standard errors of the local regressions in which the weight
of an observation is the product, over the coordinate axes, of the kernel weights of its distance along the axis. In parallel mode this is so if these
weights determine the coefficients everywhere. -/
theorem C112_fit (ex : Exec n) (hex : ex.Valid) (bws : Fin d → BandwidthWeight) (coords : Matrix (Fin n) (Fin d) ℝ) (x : Matrix (Fin n) (Fin k) ℝ)
    (y : Fin n → ℝ) (sS : Bool) (hb : ∀ m, UsableBandwidth (bws m) fun l => coords l m) (r : GWDRResult n k d)
    (h : gwdrRun ex bws coords x y sS = .ok r) :
    r.weights = bws ∧ ∃ w : Fin d → Fin n → Fin n → ℝ, (∀ m, IsAxisWeight (bws m) (fun l => coords l m) (w m)) ∧
      ((ex ≠ .serial → ∀ i, Determined x fun l => ∏ m, w m i l) → ∃ C,
        IsLocalRegression x y (fun i l => ∏ m, w m i l) r.betas C ∧ Reports x y r.betas C r.diagnostic r.se) := by
  unfold gwdrRun gwdrFinish at h
  obtain ⟨D, hD, h⟩ := Res.bind_eq_ok'.1 h
  obtain ⟨a, ha, h⟩ := Res.bind_eq_ok'.1 h
  cases Res.ok.inj h
  obtain ⟨w, hw, rfl⟩ := gwdrWeights_ok.1 (gwdrEscape_ok.1 hD)
  have hax := fun m => axis_weight (hb m) (hw m)
  refine ⟨rfl, w, fun m => (hax m).1, fun hdet => ?_⟩
  obtain ⟨C, hC⟩ := gwdrFitEx_explicit (fun m => (hax m).2) hex hdet ha
  exact ⟨C, hC.local_, calcDiagnostic_explicit hC⟩

theorem axis_weight_exists {b : BandwidthWeight} {c : Fin n → ℝ} (hb : UsableBandwidth b c) (i : Fin n) :
    ∃ w, b.weight (fun l => |c l - c i|) = .ok w := by
  obtain ⟨bw, ad, kernel⟩ := b
  obtain ⟨h0, ha⟩ := hb
  simp only at h0 ha
  cases ad with
  | false => exact ⟨_, C97_fixed_kernel_formula _ _ h0 _⟩
  | true =>
    obtain ⟨q, rfl, h2, h3, hr⟩ := ha rfl
    have h1 : 1 ≤ q := by have : (0 : ℝ) < q := h0; exact_mod_cast this
    have hk := sorted_get_isKth (fun l => |c l - c i|) h1 h2.le
    exact ⟨_, C97_adaptive_kernel_formula kernel _ q _ h1 h2 h3 hk (hr i _ hk)⟩

theorem gwdrWeights_exists {bws : Fin d → BandwidthWeight} {coords : Matrix (Fin n) (Fin d) ℝ}
    (hb : ∀ m, UsableBandwidth (bws m) fun l => coords l m) :
    ∃ w : Fin d → Fin n → Fin n → ℝ, gwdrWeights bws coords = .ok (fun i => List.ofFn fun m => w m i) ∧
      (∀ m, IsAxisWeight (bws m) (fun l => coords l m) (w m)) ∧ ∀ m i l, 0 ≤ w m i l := by
  choose w hw using fun m i => axis_weight_exists (hb m) i
  exact ⟨w, gwdrWeights_ok.2 ⟨w, hw, rfl⟩, fun m => (axis_weight (hb m) (hw m)).1, fun m => (axis_weight (hb m) (hw m)).2⟩

/-- **C112 (success).** In serial mode the fit succeeds exactly if the product weights determine the coefficients at every location; otherwise it throws
the error of a singular matrix. In parallel mode it never fails: locations whose coefficients are not determined get coefficients 0. -/
theorem C112_success (bws : Fin d → BandwidthWeight) (coords : Matrix (Fin n) (Fin d) ℝ) (x : Matrix (Fin n) (Fin k) ℝ) (y : Fin n → ℝ) (sS : Bool)
    (hb : ∀ m, UsableBandwidth (bws m) fun l => coords l m) :
    ∃ w : Fin d → Fin n → Fin n → ℝ, (∀ m, IsAxisWeight (bws m) (fun l => coords l m) (w m)) ∧
      ((∃ r, gwdrRun .serial bws coords x y sS = .ok r) ↔ ∀ i, Determined x fun l => ∏ m, w m i l) ∧
      ((∃ i, ¬ Determined x fun l => ∏ m, w m i l) → gwdrRun .serial bws coords x y sS = .throw .singular) ∧
      ∀ (T : ℕ) (evs : List (OmpEv (Fin n) (Fin T))), (Exec.omp evs).Valid → ∃ r, gwdrRun (.omp evs) bws coords x y sS = .ok r ∧
        ∀ i, (Determined x fun l => ∏ m, w m i l) ∧ IsWLS x y (fun l => ∏ m, w m i l) (r.betas i) ∨
          (¬ Determined x fun l => ∏ m, w m i l) ∧ ∀ j, r.betas i j = 0 := by
  obtain ⟨w, hW, hax, hnn⟩ := gwdrWeights_exists hb
  have hD : ∀ i, ∀ u ∈ (fun i => List.ofFn fun m => w m i : Fin n → List (Fin n → ℝ)) i, ∀ l, 0 ≤ u l := by
    intro i u hu l
    obtain ⟨m, rfl⟩ := List.mem_ofFn.1 hu
    exact hnn m i l
  obtain ⟨-, h2, h3⟩ := C54_fit x y _ hD sS
  have hpw := dim_prod w
  have hpi := fun i => congrFun hpw i
  simp only at hpi
  refine ⟨w, hax, ?_, fun hn => ?_, fun T evs hv => ?_⟩
  · simp only [hpi] at h2
    rw [← h2]
    unfold gwdrRun gwdrFinish
    simp only [gwdrEscape, hW, Res.bind, gwdrFitEx]
    constructor
    · rintro ⟨r, h⟩
      obtain ⟨a, ha, -⟩ := Res.bind_eq_ok'.1 h
      obtain ⟨⟨a', t⟩, h1, -⟩ := Res.bind_eq_ok'.1 ha
      have ht : t = false := serialFor_nostop _ _ _ h1
      subst ht
      exact ⟨a', h1⟩
    · rintro ⟨a, ha⟩
      rw [show (fun _ : ℕ => false) = NoStop from rfl, ha]
      exact ⟨_, rfl⟩
  · have := h3 (by simpa only [hpi] using hn)
    unfold gwdrRun gwdrFinish
    simp only [gwdrEscape, hW, Res.bind, gwdrFitEx]
    rw [show (fun _ : ℕ => false) = NoStop from rfl, this]
  · obtain ⟨a, ha, hi⟩ := C54_parallel_hides_failures x y _ hD sS evs (by rw [workRange_all]; exact hv)
    have hrun : ∃ r, gwdrRun (.omp evs) bws coords x y sS = .ok r ∧ r.betas = a.betas := by
      unfold gwdrRun gwdrFinish
      simp only [gwdrEscape, hW, Res.bind, gwdrFitEx]
      rw [show (fun _ : ℕ => false) = NoStop from rfl, ha]
      exact ⟨_, rfl, rfl⟩
    obtain ⟨r, hr, e⟩ := hrun
    refine ⟨r, hr, fun i => ?_⟩
    have := hi i
    simp only [hpi] at this
    rw [e]
    by_cases hdet : Determined x fun l => ∏ m, w m i l
    · exact Or.inl ⟨hdet, this.1 hdet⟩
    · exact Or.inr ⟨hdet, fun j => by rw [(this.2 hdet).1]; rfl⟩

/-- Covariates 1 and the position. -/
def trendX (n : ℕ) : Matrix (Fin n) (Fin 2) ℝ := fun i j => if j = 0 then 1 else (i : ℕ)

/-- **C112, refuted for the parallel mode.** Points 1 apart on one axis, a box kernel of bandwidth 1/2, a constant and a trend: the serial fit throws;
the parallel fit returns, with coefficients 0 everywhere, whatever the responses. -/
theorem C112_parallel_fails (hn : 0 < n) (y : Fin n → ℝ) (sS : Bool) {T : ℕ} (evs : List (OmpEv (Fin n) (Fin T))) (hv : (Exec.omp evs).Valid) :
    gwdrRun .serial (fun _ : Fin 1 => ⟨1 / 2, false, .Boxcar⟩) (fun i _ => (i : ℕ)) (trendX n) y sS = .throw .singular ∧
    ∃ r, gwdrRun (.omp evs) (fun _ : Fin 1 => ⟨1 / 2, false, .Boxcar⟩) (fun i _ => (i : ℕ)) (trendX n) y sS = .ok r ∧ ∀ i j, r.betas i j = 0 := by
  obtain ⟨w, hw, -, h2, h3⟩ := C112_success (fun _ : Fin 1 => ⟨1 / 2, false, .Boxcar⟩) (fun i _ => (i : ℕ)) (trendX n) y sS
    fun _ => ⟨by norm_num, fun h => by simp at h⟩
  have hdet : ∀ i, ¬ Determined (trendX n) fun l => ∏ m, w m i l := by
    intro i h
    have hb := h ![(i : ℕ), -1] fun l hl => by
      have hl' : 0 < w 0 i l := by simpa using hl
      have hwl : w 0 i l = kernelFormula .Boxcar (1 / 2) |((l : ℕ) : ℝ) - (i : ℕ)| := hw 0 i l
      rw [hwl] at hl'
      have hlt : |((l : ℕ) : ℝ) - (i : ℕ)| < 1 / 2 := by
        by_contra hc
        simp only [kernelFormula, if_neg hc] at hl'
        exact lt_irrefl _ hl'
      have : ((l : ℕ) : ℤ) = (i : ℕ) := by
        rw [abs_lt] at hlt
        have a1 : ((l : ℕ) : ℤ) - (i : ℕ) < 1 := by have : (((l : ℕ) : ℤ) - (i : ℕ) : ℝ) < 1 := by push_cast; linarith
                                                    exact_mod_cast this
        have a2 : -1 < ((l : ℕ) : ℤ) - (i : ℕ) := by have : (-1 : ℝ) < (((l : ℕ) : ℤ) - (i : ℕ) : ℝ) := by push_cast; linarith
                                                     exact_mod_cast this
        omega
      have e : l = i := Fin.ext (by exact_mod_cast this)
      subst e
      simp [trendX, Fin.sum_univ_two]
    have := congrFun hb 1
    simp at this
  refine ⟨h2 ⟨⟨0, hn⟩, hdet _⟩, ?_⟩
  obtain ⟨r, hr, h⟩ := h3 T evs hv
  refine ⟨r, hr, fun i j => ?_⟩
  rcases h i with ⟨h, -⟩ | ⟨-, h⟩
  · exact absurd h (hdet i)
  · exact h j

/-- **C113.** A completed fit with automatic selection of the bandwidths keeps kernels and kinds of bandwidth, reports bandwidths that are whole numbers,
and its results are those of the fit with these bandwidths given. -/
theorem C113_auto_fit (gsl : (Fin d → ℝ) → SimplexTrace d) (eps : ℝ) (maxIter : ℕ) (ex : Exec n) (bws : Fin d → BandwidthWeight)
    (coords : Matrix (Fin n) (Fin d) ℝ) (x : Matrix (Fin n) (Fin k) ℝ) (y : Fin n → ℝ) (sS : Bool) (r : GWDRResult n k d)
    (h : gwdrAutoRun gsl eps maxIter ex bws coords x y sS = .ok r) :
    gwdrRun ex r.weights coords x y sS = .ok r ∧
    ∀ m, (r.weights m).mKernel = (bws m).mKernel ∧ (r.weights m).mAdaptive = (bws m).mAdaptive ∧ ∃ z : ℕ, (r.weights m).mBandwidth = z := by
  unfold gwdrAutoRun at h
  obtain ⟨b, hb, h⟩ := Res.bind_eq_ok'.1 h
  have hw : r.weights = b := by
    unfold gwdrFinish at h
    obtain ⟨D, -, h⟩ := Res.bind_eq_ok'.1 h
    obtain ⟨a, -, h⟩ := Res.bind_eq_ok'.1 h
    rw [← Res.ok.inj h]
  refine ⟨by rw [hw]; exact h, fun m => ?_⟩
  rw [hw]
  unfold gwdrBandwidths at hb
  obtain ⟨b0, h0, hb⟩ := Res.bind_eq_ok'.1 hb
  rw [Res.tabulate_eq_ok] at h0
  have hm := h0 m
  unfold gwdrStart at hm
  obtain ⟨lo, -, hm⟩ := Res.bind_eq_ok'.1 hm
  obtain ⟨up, -, hm⟩ := Res.bind_eq_ok'.1 hm
  have hm := (Res.ok.inj hm).symm
  by_cases hc : (gsl (startPoint n (fun m => (b0 m).mAdaptive) fun m => (b0 m).mBandwidth)).setOk = true ∧
      (simplexRun (gsl (startPoint n (fun m => (b0 m).mAdaptive) fun m => (b0 m).mBandwidth)).size
        (gsl (startPoint n (fun m => (b0 m).mAdaptive) fun m => (b0 m).mBandwidth)).bad eps maxIter).2 = true
  · simp only [if_pos hc] at hb
    rw [← Res.ok.inj hb]
    refine ⟨?_, ?_, ?_⟩
    · show (b0 m).mKernel = _
      rw [hm]; split <;> rfl
    · show (b0 m).mAdaptive = _
      rw [hm]; split <;> rfl
    · have hz : (0 : ℤ) ≤ ⌊|(gsl (startPoint n (fun m => (b0 m).mAdaptive) fun m => (b0 m).mBandwidth)).best m| * n + 1 / 2⌋ :=
        Int.floor_nonneg.2 (by positivity)
      refine ⟨⌊|(gsl (startPoint n (fun m => (b0 m).mAdaptive) fun m => (b0 m).mBandwidth)).best m| * n + 1 / 2⌋.toNat, ?_⟩
      show ((⌊_⌋ : ℤ) : ℝ) = _
      have := Int.toNat_of_nonneg hz
      exact_mod_cast this.symm
  · simp only [if_neg hc] at hb; cases hb

theorem zero_bandwidth {b : BandwidthWeight} (h0 : b.mBandwidth = 0) (hf : b.mAdaptive = false) {c : Fin n → ℝ} {i : Fin n} {w : Fin n → ℝ}
    (h : b.weight (fun l => |c l - c i|) = .ok w) : ∀ l, w l = 0 := by
  obtain ⟨bw, ad, kernel⟩ := b
  simp only at h0 hf
  subst h0 hf
  unfold BandwidthWeight.weight at h
  simp only [Bool.false_eq_true, if_false] at h
  have h' := kernelVec_eq_ok.1 h
  have hi := h' i
  cases kernel
  · simp [kernelAt, gaussianKernel] at hi
  · simp [kernelAt, exponentialKernel] at hi
  · simp [kernelAt, bisquareKernel] at hi
  · simp [kernelAt, tricubeKernel] at hi
  · intro l
    have := h' l
    simp only [kernelAt, boxcarKernel, less, mul_one] at this
    rw [if_neg (not_lt.2 (abs_nonneg _))] at this
    exact (Res.ok.inj this).symm

/-- **C113, refuted for small units.** If along some axis with a fixed kernel the best bandwidth found is below 1/2 — as it must be if all coordinates are
within 1/2 of each other and the search stays within the distances — the fit with automatic selection never returns, whatever the data and the kernels. -/
theorem C113_small_units_fail (gsl : (Fin d → ℝ) → SimplexTrace d) (eps : ℝ) (maxIter : ℕ) (bws : Fin d → BandwidthWeight)
    (coords : Matrix (Fin n) (Fin d) ℝ) (hn : 0 < n) (hk : 0 < k) (x : Matrix (Fin n) (Fin k) ℝ) (y : Fin n → ℝ) (sS : Bool)
    (hsmall : ∀ p, ∃ m, (bws m).mAdaptive = false ∧ triedBandwidths n (gsl p).best m < 1 / 2) (r : GWDRResult n k d) :
    gwdrAutoRun gsl eps maxIter .serial bws coords x y sS ≠ .ok r := by
  intro h
  have hauto := C113_auto_fit gsl eps maxIter .serial bws coords x y sS r h
  unfold gwdrAutoRun at h
  obtain ⟨b, hb, h⟩ := Res.bind_eq_ok'.1 h
  unfold gwdrFinish at h
  obtain ⟨D, hD, h⟩ := Res.bind_eq_ok'.1 h
  obtain ⟨a, ha, h⟩ := Res.bind_eq_ok'.1 h
  have hw : r.weights = b := by rw [← Res.ok.inj h]
  obtain ⟨w, hw', rfl⟩ := gwdrWeights_ok.1 (gwdrEscape_ok.1 hD)
  unfold gwdrBandwidths at hb
  obtain ⟨b0, h0, hb⟩ := Res.bind_eq_ok'.1 hb
  by_cases hc : (gsl (startPoint n (fun m => (b0 m).mAdaptive) fun m => (b0 m).mBandwidth)).setOk = true ∧
      (simplexRun (gsl (startPoint n (fun m => (b0 m).mAdaptive) fun m => (b0 m).mBandwidth)).size
        (gsl (startPoint n (fun m => (b0 m).mAdaptive) fun m => (b0 m).mBandwidth)).bad eps maxIter).2 = true
  swap
  · simp only [if_neg hc] at hb; cases hb
  simp only [if_pos hc] at hb
  obtain ⟨m, hm1, hm2⟩ := hsmall (startPoint n (fun m => (b0 m).mAdaptive) fun m => (b0 m).mBandwidth)
  have hz : (b m).mBandwidth = 0 := by
    rw [← Res.ok.inj hb]
    exact C61_small_bandwidth_lost n _ m hm2
  have hf : (b m).mAdaptive = false := by rw [← hw, (hauto.2 m).2.1, hm1]
  have hzero : ∀ i l, w m i l = 0 := fun i => zero_bandwidth hz hf (hw' m i)
  have hprod : ∀ i l, (((fun i => List.ofFn fun m => w m i : Fin n → List (Fin n → ℝ)) i).map fun w => w l).prod = 0 := by
    intro i l
    rw [List.map_ofFn, List.prod_ofFn]
    exact Finset.prod_eq_zero (Finset.mem_univ m) (hzero i l)
  unfold gwdrFitEx at ha
  obtain ⟨⟨a', t⟩, h1, -⟩ := Res.bind_eq_ok'.1 ha
  unfold gwdrFitSerial at h1
  have ht : t = false := serialFor_nostop _ _ _ h1
  subst ht
  obtain ⟨lf, hlf⟩ := serialFor_complete _ _ _ _ h1 ⟨0, hn⟩ (by rw [workRange_all]; exact List.mem_finRange _)
  have hdw : dimWeight ((fun i => List.ofFn fun m => w m i : Fin n → List (Fin n → ℝ)) ⟨0, hn⟩) = 0 := by
    funext l; rw [dimWeight_prod]; exact hprod _ l
  rw [hdw] at hlf
  have hx : xtwx x 0 = 0 := by ext a b; simp [xtwx, xtw, Matrix.mul_apply]
  unfold localFitInv invGeneral at hlf
  have : ¬ IsUnit (xtwx x 0).det := by
    have : Nonempty (Fin k) := ⟨⟨0, hk⟩⟩
    rw [hx, Matrix.det_zero]; simp
  rw [if_neg this] at hlf
  cases hlf

/-- With a positive fixed bandwidth along every axis a regression on a constant always succeeds. -/
theorem ones_axis_success (bws : Fin d → BandwidthWeight) (coords : Matrix (Fin n) (Fin d) ℝ) (y : Fin n → ℝ) (sS : Bool)
    (hb : ∀ m, 0 < (bws m).mBandwidth ∧ (bws m).mAdaptive = false) : ∃ r, gwdrRun .serial bws coords (ones n) y sS = .ok r := by
  obtain ⟨w, hw, h1, -⟩ := C112_success bws coords (ones n) y sS fun m => ⟨(hb m).1, fun h => by rw [(hb m).2] at h; cases h⟩
  refine h1.2 fun i => ones_det (fun l => Finset.prod_nonneg fun m _ => ?_) ⟨i, Finset.prod_pos fun m _ => ?_⟩
  all_goals have := hw m
  · unfold IsAxisWeight at this
    rw [if_neg (by rw [(hb m).2]; simp)] at this
    rw [this i l]
    exact kernelFormula_nonneg _ (hb m).1 _
  unfold IsAxisWeight at this
  rw [if_neg (by rw [(hb m).2]; simp)] at this
  rw [this i i, sub_self, abs_zero]
  have h0 := (hb m).1
  cases (bws m).mKernel <;> simp [kernelFormula, h0]

/-- **C113, the lost bandwidth was good.** In the situation of `C113_small_units_fail`, with a regression on a constant and fixed positive bandwidths, the
fit with the very bandwidths the search found best succeeds when they are given. -/
theorem C113_small_units_given (best : Fin d → ℝ) (bws : Fin d → BandwidthWeight) (coords : Matrix (Fin n) (Fin d) ℝ) (y : Fin n → ℝ) (sS : Bool)
    (hf : ∀ m, (bws m).mAdaptive = false) (hp : ∀ m, 0 < triedBandwidths n best m) :
    ∃ r, gwdrRun .serial (fun m => { bws m with mBandwidth := triedBandwidths n best m }) coords (ones n) y sS = .ok r :=
  ones_axis_success _ coords y sS fun m => ⟨hp m, hf m⟩

theorem gwdrDist_row (c : Fin n → ℝ) (i : ℕ) (hi : i < n) : (gwdrDistance c).distance i = .ok (List.ofFn fun l => |c l - c ⟨i, hi⟩|) := by
  have e : gwdrDistance c = ⟨some (List.ofFn c, List.ofFn c)⟩ := rfl
  rw [e]
  simp only [OneDimDistance.distance, List.length_ofFn, hi, dif_pos, List.getElem_ofFn, List.map_ofFn]
  rfl

/-- **C113 (start).** For a fixed kernel along an axis the search starts from the configured bandwidth if it lies strictly between 0 and the greatest
distance along the axis, and otherwise from 0.618 times that distance. -/
theorem C113_start (k : ℕ) (b : BandwidthWeight) (hf : b.mAdaptive = false) (c : Fin n → ℝ) (hn : 0 < n) :
    ∃ D, IsGreatest (Set.range fun p : Fin n × Fin n => |c p.1 - c p.2|) D ∧
      gwdrStart k b c = .ok { b with mBandwidth := if 0 < b.mBandwidth ∧ b.mBandwidth < D then b.mBandwidth else D * (618 / 1000) } := by
  have hrow : ∀ i ∈ List.range (List.ofFn c).length, ∃ l, (gwdrDistance c).distance i = .ok l ∧ l ≠ [] := by
    intro i hi
    have hi' : i < n := by simpa using hi
    refine ⟨_, gwdrDist_row c i hi', fun h => ?_⟩
    have := congrArg List.length h
    simp at this
    omega
  obtain ⟨lo, hlo⟩ := minLoop_total (row := (gwdrDistance c).distance) dblMax hrow
  obtain ⟨up, hup⟩ := maxLoop_total (row := (gwdrDistance c).distance) 0 hrow
  obtain ⟨-, l2, l3⟩ := minLoop_spec hlo
  obtain ⟨u1, u2, u3⟩ := maxLoop_spec hup
  have hmem : ∀ i : Fin n, i.val ∈ List.range (List.ofFn c).length := fun i => by simp
  have hlo0 : lo = 0 := by
    obtain ⟨l, hl, -, h⟩ := l2 0 (hmem ⟨0, hn⟩)
    rw [gwdrDist_row c 0 hn] at hl
    have h0 : lo ≤ 0 := h 0 (by rw [← Res.ok.inj hl]; exact List.mem_ofFn.2 ⟨⟨0, hn⟩, by simp⟩)
    rcases l3 with e | ⟨i, hi, l, hl, hm⟩
    · linarith [hundred_lt_dblMax]
    · have hi' : i < n := by simpa using hi
      rw [gwdrDist_row c i hi'] at hl
      rw [← Res.ok.inj hl] at hm
      obtain ⟨j, e⟩ := List.mem_ofFn.1 hm
      exact le_antisymm h0 (by rw [← e]; exact abs_nonneg _)
  have hub : ∀ i j : Fin n, |c j - c i| ≤ up := by
    intro i j
    obtain ⟨l, hl, -, h⟩ := u2 i (hmem i)
    rw [gwdrDist_row c i i.isLt] at hl
    exact h _ (by rw [← Res.ok.inj hl]; exact List.mem_ofFn.2 ⟨j, rfl⟩)
  refine ⟨up, ⟨?_, ?_⟩, ?_⟩
  · rcases u3 with e | ⟨i, hi, l, hl, hm⟩
    · exact ⟨(⟨0, hn⟩, ⟨0, hn⟩), by simp [e]⟩
    · have hi' : i < n := by simpa using hi
      rw [gwdrDist_row c i hi'] at hl
      rw [← Res.ok.inj hl] at hm
      obtain ⟨j, e⟩ := List.mem_ofFn.1 hm
      exact ⟨(j, ⟨i, hi'⟩), e⟩
  · rintro _ ⟨⟨i, j⟩, rfl⟩; exact hub j i
  · have h1 : (gwdrDistance c).minDistance = .ok lo := hlo
    have h2 : (gwdrDistance c).maxDistance = .ok up := hup
    unfold gwdrStart
    simp only [hf, Bool.false_eq_true, if_false, h1, h2, Res.bind]
    subst hlo0
    by_cases hc : 0 < b.mBandwidth ∧ b.mBandwidth < up
    · rw [if_neg (by push Not; exact hc), if_pos hc, ← hf]
    · rw [if_pos (by by_contra h; push Not at h; exact hc h), if_neg hc, ← hf]

theorem gwdrGlobal_eq (x : Matrix (Fin n) (Fin k) ℝ) (y : Fin n → ℝ) :
    gwdrGlobalCriterion x y = criterionAIC x y false (fitCoreSHatSerial x y (fun _ _ => 1) 0 n NoStop) := by
  have hx : ∀ i : Fin n, xtw x ((fun _ _ => 1 : Fin n → Fin n → ℝ) i) = xᵀ := fun i => by ext a b; simp [xtw]
  have hxx : ∀ i : Fin n, xtwx x ((fun _ _ => 1 : Fin n → Fin n → ℝ) i) = xᵀ * x := fun i => by unfold xtwx; rw [hx i]
  unfold gwdrGlobalCriterion invSympd
  by_cases hpd : (xᵀ * x).PosDef
  · rw [if_pos hpd]
    obtain ⟨b, e, hb, -⟩ := shatLoop_ok (x := x) (y := y) (W := fun _ _ => 1) 0 n (fun i _ _ => by rw [hxx i]; exact hpd)
    rw [e]
    have hb' : b = Matrix.of fun _ => (xᵀ * x)⁻¹ *ᵥ (xᵀ *ᵥ y) := by
      funext i
      rw [hb i (Nat.zero_le _) i.isLt]
      show (xtwx x _)⁻¹ *ᵥ (xtw x _ *ᵥ y) = _
      rw [hxx i, hx i]; rfl
    have hs : (((workRange n 0 n).map fun i => shatRow i (fitAt x y (fun _ _ => 1) i)).sum) 0 = ∑ i, (x i ᵥ* ((xᵀ * x)⁻¹ * xᵀ)) i := by
      rw [sum_workRange, Finset.sum_apply]
      refine Finset.sum_congr rfl fun i _ => ?_
      show (x i ᵥ* ((xtwx x _)⁻¹ * xtw x _)) i = _
      rw [hxx i, hx i]
    simp only [criterionAIC, hb', hs, Matrix.cons_val_zero]
  · rw [if_neg hpd]
    rcases Nat.eq_zero_or_pos n with rfl | hn
    · simp [fitCoreSHatSerial, criterionAIC, workRange, serialFor, aicc, fdiv, Res.bind]
    · have : fitCoreSHatSerial x y (fun _ _ => 1) 0 n NoStop = .throw .singular := by
        refine serialFor_fail (fun i => localFit_cases x y _ (x i)) _ 0 _ (fun _ _ => rfl)
          ⟨⟨0, hn⟩, mem_workRange.2 ⟨Nat.zero_le _, hn⟩, ?_⟩
        rcases localFit_cases x y (fun _ => 1) (x ⟨0, hn⟩) with ⟨r, hr⟩ | hr
        · have := (localFit_eq_ok.1 hr).1
          rw [hxx ⟨0, hn⟩] at this
          exact absurd this hpd
        · exact hr
      rw [this]; rfl

theorem gwdrLocal_eq (x : Matrix (Fin n) (Fin k) ℝ) (y : Fin n → ℝ) (D : Fin n → List (Fin n → ℝ)) (hD : ∀ i, ∀ w ∈ D i, ∀ l, 0 ≤ w l)
    {ex : Exec n} (hex : ex.Valid) :
    gwdrLocalCriterion x y D ex = criterionAIC x y false (fitCoreSHatSerial x y (fun i l => ((D i).map fun w => w l).prod) 0 n NoStop) := by
  have hf : (fun i => localFit x y (dimWeight (D i)) (x i)) = fun i => localFitInv x y (dimWeight (D i)) (x i) := by
    funext i; exact (localFitInv_eq x y _ _ fun l => dimWeight_nonneg (hD i) l).symm
  cases ex with
  | serial =>
    have h := (C54_aic x y D hD _ (seqEvents_schedule (fun _ => (0 : Fin 1)) (workRange n 0 n))).1
    rw [← h]
    unfold gwdrLocalCriterion gwdrAICSerial
    rw [hf]
  | omp evs =>
    have h := C54_aic x y D hD evs (by rw [workRange_all]; exact hex)
    rw [← h.1, ← h.2]
    unfold gwdrLocalCriterion gwdrAICOmp
    rw [hf]

/-- The weights by which variables are compared: 1 everywhere if `glob`, otherwise the products of the axis weights `w`. -/
noncomputable def comparisonWeights (glob : Bool) (w : Fin d → Fin n → Fin n → ℝ) : Fin n → Fin n → ℝ := fun i l => if glob = true then 1 else ∏ m, w m i l

theorem gwdrVarsCriterion_spec {glob : Bool} {w : Fin d → Fin n → Fin n → ℝ} (hw : glob = false → ∀ m i l, 0 ≤ w m i l) {D : Fin n → List (Fin n → ℝ)}
    (hD : glob = false → D = fun i => List.ofFn fun m => w m i) {sched : List ℕ → Exec n} (hs : ∀ v, (sched v).Valid) {x : Matrix (Fin n) (Fin k) ℝ} {y : Fin n → ℝ}
    {hasIntercept : Bool} {vars : List ℕ} {v : ℝ} (h : gwdrVarsCriterion glob D sched x y hasIntercept vars = .ok v) :
    ∃ (k' : ℕ) (X : Matrix (Fin n) (Fin k') ℝ), Columns x (modelColumns hasIntercept vars) X ∧
      IsCorrectedAIC X y (comparisonWeights glob w) dblMax v := by
  obtain ⟨X, hX, h⟩ := Res.bind_eq_ok'.1 h
  refine ⟨_, X, (pickCols_ok hX).1, ?_⟩
  rw [← Res.ok.inj h]
  cases glob with
  | true =>
    have e : comparisonWeights true w = fun _ _ => 1 := by funext i l; simp [comparisonWeights]
    rw [e, if_pos rfl, gwdrGlobal_eq]
    exact aicc_spec X y fun _ _ => zero_le_one
  | false =>
    have e : comparisonWeights false w = fun i l => ∏ m, w m i l := by funext i l; simp [comparisonWeights]
    have hnn := hw rfl
    have hD' := hD rfl
    subst hD'
    have hDn : ∀ i, ∀ u ∈ (fun i => List.ofFn fun m => w m i : Fin n → List (Fin n → ℝ)) i, ∀ l, 0 ≤ u l := by
      intro i u hu l
      obtain ⟨m, rfl⟩ := List.mem_ofFn.1 hu
      exact hnn m i l
    rw [e, if_neg (by simp), gwdrLocal_eq X y _ hDn (hs vars), dim_prod]
    exact aicc_spec X y fun i l => Finset.prod_nonneg fun m _ => hnn m i l

/-- What a selection of variables reports (C114): a greedy forward search over all columns but the intercept, by the corrected Akaike criterion of the
regressions with weights `W`; the reported list, the variables selected from it, and the columns the model continues with. -/
def IsForwardSelection (thr : ℝ) (x : Matrix (Fin n) (Fin k) ℝ) (y : Fin n → ℝ) (W : Fin n → Fin n → ℝ) (hasIntercept : Bool) (s : Selected n) : Prop :=
  let first := if hasIntercept = true then 1 else 0
  ∃ path visited, GreedySearch (k - first) path visited ∧
    (∀ m ∈ visited, ∃ (k' : ℕ) (X : Matrix (Fin n) (Fin k') ℝ),
      Columns x (modelColumns hasIntercept (m.1.map fun i => i + first)) X ∧ IsCorrectedAIC X y W dblMax m.2) ∧
    s.criteria.Perm (visited.map fun m => (m.1.map fun i => i + first, m.2)) ∧
    s.criteria.Pairwise (fun a b => a.1.length < b.1.length ∨ (a.1.length = b.1.length ∧ b.2 ≤ a.2)) ∧
    (∃ c, LastGap thr s.criteria (s.vars, c)) ∧
    s.vars.Nodup ∧ s.vars ≠ [] ∧ (∀ v ∈ s.vars, first ≤ v ∧ v < k) ∧
    Columns x (modelColumns hasIntercept s.vars) s.x

/-- **C114 (bandwidths given).** Selection of variables is a forward search by the corrected Akaike criterion of the regressions with the product weights;
the fit is that of the selected columns. -/
theorem C114_selection (srt : List FModel → List FModel) (hsrt : IsStdSort srt) (thr : ℝ) (sched : List ℕ → Exec n) (hs : ∀ v, (sched v).Valid) (ex : Exec n)
    (bws : Fin d → BandwidthWeight) (coords : Matrix (Fin n) (Fin d) ℝ) (x : Matrix (Fin n) (Fin k) ℝ) (y : Fin n → ℝ) (hasIntercept sS : Bool)
    (hb : ∀ m, UsableBandwidth (bws m) fun l => coords l m) (s : Selected n) (r : GWDRResult n s.cols.length d)
    (h : gwdrVarRun srt thr sched ex bws coords x y hasIntercept sS = .ok ⟨s, r⟩) :
    gwdrRun ex bws coords s.x y sS = .ok r ∧
    ∃ w : Fin d → Fin n → Fin n → ℝ, (∀ m, IsAxisWeight (bws m) (fun l => coords l m) (w m)) ∧
      IsForwardSelection thr x y (fun i l => ∏ m, w m i l) hasIntercept s := by
  unfold gwdrVarRun at h
  obtain ⟨s', h1, h⟩ := Res.bind_eq_ok'.1 h
  obtain ⟨r', h2, h⟩ := Res.bind_eq_ok'.1 h
  cases Res.ok.inj h
  refine ⟨h2, ?_⟩
  unfold gwdrSelectVars at h1
  rw [if_neg (by push Not; exact fun m => (hb m).1.ne')] at h1
  obtain ⟨D, hD, h1⟩ := Res.bind_eq_ok'.1 h1
  obtain ⟨w, hw, rfl⟩ := gwdrWeights_ok.1 (gwdrEscape_ok.1 hD)
  have hax := fun m => axis_weight (hb m) (hw m)
  obtain ⟨path, visited, a1, a2, a3⟩ := selectVars_spec hsrt h1
  refine ⟨w, fun m => (hax m).1, path, visited, a1, fun m hm => ?_, a3⟩
  have := gwdrVarsCriterion_spec (w := w) (fun _ => fun m => (hax m).2) (fun _ => rfl) hs (a2 m hm)
  have e : comparisonWeights false w = fun i l => ∏ m, w m i l := by funext i l; simp [comparisonWeights]
  rwa [e] at this

/-- **C114 (bandwidths selected).** If bandwidths are selected too, variables are compared by ordinary regressions, then bandwidths are chosen for the selected
columns and the fit is that of these columns. -/
theorem C114_both (srt : List FModel → List FModel) (hsrt : IsStdSort srt) (thr : ℝ) (sched : List ℕ → Exec n) (hs : ∀ v, (sched v).Valid)
    (gsl : (Fin d → ℝ) → SimplexTrace d) (eps : ℝ) (maxIter : ℕ) (ex : Exec n)
    (bws : Fin d → BandwidthWeight) (coords : Matrix (Fin n) (Fin d) ℝ) (x : Matrix (Fin n) (Fin k) ℝ) (y : Fin n → ℝ) (hasIntercept sS : Bool)
    (s : Selected n) (r : GWDRResult n s.cols.length d)
    (h : gwdrVarAutoRun srt thr sched gsl eps maxIter ex bws coords x y hasIntercept sS = .ok ⟨s, r⟩) :
    IsForwardSelection thr x y (fun _ _ => 1) hasIntercept s ∧ gwdrRun ex r.weights coords s.x y sS = .ok r := by
  unfold gwdrVarAutoRun at h
  obtain ⟨s', h1, h⟩ := Res.bind_eq_ok'.1 h
  obtain ⟨r', h2, h⟩ := Res.bind_eq_ok'.1 h
  cases Res.ok.inj h
  refine ⟨?_, (C113_auto_fit gsl eps maxIter ex bws coords _ y sS _ h2).1⟩
  obtain ⟨path, visited, a1, a2, a3⟩ := selectVars_spec hsrt h1
  refine ⟨path, visited, a1, fun m hm => ?_, a3⟩
  have := gwdrVarsCriterion_spec (w := fun (_ : Fin d) _ _ => 0) (by simp) (by simp) hs (a2 m hm)
  have e : comparisonWeights true (fun (_ : Fin d) (_ : Fin n) (_ : Fin n) => (0 : ℝ)) = fun _ _ => 1 := by funext i l; simp [comparisonWeights]
  rwa [e] at this

/-! ### The hypotheses are met -/

/-- C112: a fit on two axes with different kernels completes, serially and on any schedule. -/
example (n : ℕ) (y : Fin n → ℝ) (coords : Matrix (Fin n) (Fin 2) ℝ) :
    ∃ r, gwdrRun .serial ![⟨2, false, .Gaussian⟩, ⟨3, false, .Boxcar⟩] coords (ones n) y true = .ok r :=
  ones_axis_success _ coords y true fun m => by fin_cases m <;> norm_num

/-- A minimiser that stops at once with every coordinate 1. -/
def tameGsl : (Fin d → ℝ) → SimplexTrace d := fun _ => ⟨true, fun _ => 0, fun _ => false, fun _ => 1⟩

theorem tame_bandwidths (hn : 0 < n) (bws : Fin d → BandwidthWeight) (hf : ∀ m, (bws m).mAdaptive = false) (coords : Matrix (Fin n) (Fin d) ℝ) (k : ℕ) :
    gwdrBandwidths tameGsl 1 1 bws coords k = .ok fun m => { bws m with mBandwidth := n } := by
  choose D hD hs using fun m => C113_start k (bws m) (hf m) (fun l => coords l m) hn
  have h0 := Res.tabulate_eq_ok.2 hs
  unfold gwdrBandwidths
  rw [h0]
  simp only [Res.bind]
  have hsim : (simplexRun (fun _ => (0 : ℝ)) (fun _ => false) 1 1).2 = true := by
    have h10 : ¬ ((1 : ℝ) < 0) := by norm_num
    simp [simplexRun, simplexLoop, h10]
  rw [if_pos ⟨rfl, hsim⟩]
  congr 1
  funext m
  have : finalBandwidths n (fun _ : Fin d => (1 : ℝ)) m = n := by
    simp only [finalBandwidths, abs_one, one_mul]
    have : ⌊(n : ℝ) + 1 / 2⌋ = n := by
      rw [Int.floor_eq_iff]; constructor <;> push_cast <;> linarith
    rw [this]; simp
  simp only [tameGsl, this]

/-- C113: a fit with automatic selection of bandwidths completes. -/
theorem ex_auto (hn : 0 < n) (bws : Fin d → BandwidthWeight) (hf : ∀ m, (bws m).mAdaptive = false) (coords : Matrix (Fin n) (Fin d) ℝ) (y : Fin n → ℝ) :
    ∃ r, gwdrAutoRun tameGsl 1 1 .serial bws coords (ones n) y true = .ok r := by
  unfold gwdrAutoRun
  rw [tame_bandwidths hn bws hf]
  exact ones_axis_success _ coords y true fun m => ⟨by simpa using hn, hf m⟩

/-- C113, refutation: bandwidths below 1/2 that are positive. -/
example : ∀ p : Fin 2 → ℝ, (∃ m, triedBandwidths 10 ((fun _ => ⟨true, fun _ => 0, fun _ => false, fun _ => 1 / 100⟩ : (Fin 2 → ℝ) → SimplexTrace 2) p).best m < 1 / 2) ∧
    ∀ m, 0 < triedBandwidths 10 ((fun _ => ⟨true, fun _ => 0, fun _ => false, fun _ => 1 / 100⟩ : (Fin 2 → ℝ) → SimplexTrace 2) p).best m := by
  intro p
  constructor
  · exact ⟨0, by simp only [triedBandwidths]; rw [abs_of_pos (by norm_num)]; norm_num⟩
  · intro m; simp only [triedBandwidths]; rw [abs_of_pos (by norm_num)]; norm_num

theorem aicc_bounds : |aiccFormula 6 2 2| ≤ dblMax ∧ |aiccFormula 6 2 3| ≤ dblMax := by
  have h1 : Real.log (2 / 6) ≤ 0 := Real.log_nonpos (by norm_num) (by norm_num)
  have h2 : -2 ≤ Real.log (2 / 6) := by
    have := Real.log_le_sub_one_of_pos (show (0 : ℝ) < 6 / 2 by norm_num)
    rw [show (2 / 6 : ℝ) = (6 / 2)⁻¹ by norm_num, Real.log_inv]
    linarith
  have h3 : 0 ≤ Real.log (2 * Real.pi) := Real.log_nonneg (by linarith [Real.pi_gt_three])
  have h4 : Real.log (2 * Real.pi) ≤ 7 := by
    have := Real.log_le_sub_one_of_pos (show (0 : ℝ) < 2 * Real.pi by positivity)
    linarith [Real.pi_lt_four]
  have := hundred_lt_dblMax
  constructor <;> rw [abs_le] <;> unfold aiccFormula <;> norm_num <;> constructor <;> nlinarith

theorem sel_gwdr {vars : List ℕ} {v : ℝ} (hv : |v| ≤ dblMax) {glob : Bool} {D : Fin 6 → List (Fin 6 → ℝ)}
    (hD : ∀ i, ∀ w ∈ D i, ∀ l, w l = 1) {sched : List ℕ → Exec 6} (hs : ∀ v, (sched v).Valid)
    (h : ∃ X, pickCols selX (index2uvec vars true) = .ok X ∧ ∃ r, fitCoreSHatSerial X selY (fun _ _ => 1) 0 6 NoStop = .ok r ∧
      aicc X selY r.1.1 (r.1.2 0) = .ok v) :
    gwdrVarsCriterion glob D sched selX selY true vars = .ok v := by
  obtain ⟨X, hX, ⟨⟨b, s⟩, t⟩, hr, ha⟩ := h
  have ht : t = false := serialFor_nostop _ _ _ hr
  subst ht
  have hc : criterionAIC X selY false (fitCoreSHatSerial X selY (fun _ _ => 1) 0 6 NoStop) = v := by
    rw [hr]
    simp only at ha
    simp only [criterionAIC, ha, and_self, if_true, finiteOrMax, hv]
  have hp : (fun i l => ((D i).map fun w => w l).prod : Fin 6 → Fin 6 → ℝ) = fun _ _ => 1 := by
    funext i l
    exact List.prod_eq_one fun a ha => by
      obtain ⟨w, hw, rfl⟩ := List.mem_map.1 ha
      exact hD i w hw l
  unfold gwdrVarsCriterion
  rw [hX]
  simp only [Res.bind]
  congr 1
  by_cases hg : glob = true
  · rw [if_pos hg, gwdrGlobal_eq, hc]
  · rw [if_neg hg, gwdrLocal_eq _ _ D (fun i w hw l => by rw [hD i w hw l]; exact zero_le_one) (hs vars), hp, hc]

/-- C114: on six points a line selection of variables completes with one variable, and the fit with the selected column as well; with both selections too. -/
theorem ex_select_gwdr (srt : List FModel → List FModel) (hsrt : IsStdSort srt) :
    (∃ s r, gwdrVarRun srt 0 (fun _ => .serial) .serial (fun _ : Fin 2 => ⟨11, false, .Boxcar⟩) (fun i _ => (i : ℕ)) selX selY true true = .ok ⟨s, r⟩ ∧
      s.vars.length = 1) ∧
    ∃ s r, gwdrVarAutoRun srt 0 (fun _ => .serial) tameGsl 1 1 .serial (fun _ : Fin 2 => ⟨11, false, .Boxcar⟩) (fun i _ => (i : ℕ)) selX selY true true =
      .ok ⟨s, r⟩ ∧ s.vars.length = 1 := by
  have hlt : aiccFormula 6 2 (2 : ℕ) < aiccFormula 6 2 (3 : ℕ) := by have := aicc_drop; push_cast; linarith
  have key : ∀ (bw : ℝ), 5 < bw → ∀ {X : Σ k', Matrix (Fin 6) (Fin k') ℝ}, Determined X.2 (fun _ => 1) →
      ∃ r, gwdrRun .serial (fun _ : Fin 2 => ⟨bw, false, .Boxcar⟩) (fun i _ => (i : ℕ)) X.2 selY true = .ok r := by
    intro bw hbw X hdet
    obtain ⟨w, hw, h1, -⟩ := C112_success (fun _ : Fin 2 => ⟨bw, false, .Boxcar⟩) (fun i _ => (i : ℕ)) X.2 selY true
      fun m => ⟨by show 0 < bw; linarith, fun h => by simp at h⟩
    refine h1.2 fun i => ?_
    have : (fun l => ∏ m, w m i l) = fun _ => 1 := by
      funext l
      refine Finset.prod_eq_one fun m _ => ?_
      have hwl : w m i l = kernelFormula .Boxcar bw |((l : ℕ) : ℝ) - (i : ℕ)| := hw m i l
      have hi : (i.val : ℝ) ≤ 5 := by exact_mod_cast Nat.le_of_lt_succ i.isLt
      have hl : (l.val : ℝ) ≤ 5 := by exact_mod_cast Nat.le_of_lt_succ l.isLt
      have hi0 : (0 : ℝ) ≤ i.val := Nat.cast_nonneg _
      have hl0 : (0 : ℝ) ≤ l.val := Nat.cast_nonneg _
      have : |((l : ℕ) : ℝ) - (i : ℕ)| < bw := by rw [abs_lt]; constructor <;> linarith
      rw [hwl]; simp only [kernelFormula, if_pos this]
    rw [this]; exact hdet
  have det : ∀ {crit : List ℕ → Res ℝ} {s : Selected 6}, selectVars crit srt 0 selX true = .ok s → s.vars.length = 1 → Determined s.x fun _ => 1 := by
    intro crit s hs h1
    obtain ⟨-, -, -, -, -, -, -, -, -, hv, hc⟩ := selectVars_spec hsrt hs
    obtain ⟨v, e⟩ := List.length_eq_one_iff.1 h1
    have := hv v (by rw [e]; simp)
    refine sel_determined (v := v) (by simp at this; omega) ?_
    rw [e] at hc; exact hc
  constructor
  · have hb : ∀ m : Fin 2, UsableBandwidth ((fun _ => ⟨11, false, .Boxcar⟩ : Fin 2 → BandwidthWeight) m) fun l : Fin 6 => ((l : ℕ) : ℝ) := fun m =>
      ⟨by norm_num, fun h => by simp at h⟩
    obtain ⟨w, hW, hax, -⟩ := gwdrWeights_exists (coords := fun (i : Fin 6) (_ : Fin 2) => ((i : ℕ) : ℝ)) hb
    have hD : ∀ i, ∀ u ∈ (fun i => List.ofFn fun m => w m i : Fin 6 → List (Fin 6 → ℝ)) i, ∀ l, u l = 1 := by
      intro i u hu l
      obtain ⟨m, rfl⟩ := List.mem_ofFn.1 hu
      have hwl : w m i l = kernelFormula .Boxcar 11 |((l : ℕ) : ℝ) - (i : ℕ)| := hax m i l
      have hi : (i.val : ℝ) ≤ 5 := by exact_mod_cast Nat.le_of_lt_succ i.isLt
      have hl : (l.val : ℝ) ≤ 5 := by exact_mod_cast Nat.le_of_lt_succ l.isLt
      have hi0 : (0 : ℝ) ≤ i.val := Nat.cast_nonneg _
      have hl0 : (0 : ℝ) ≤ l.val := Nat.cast_nonneg _
      have : |((l : ℕ) : ℝ) - (i : ℕ)| < 11 := by rw [abs_lt]; constructor <;> linarith
      rw [hwl]; simp only [kernelFormula, if_pos this]
    obtain ⟨s, hs, h1⟩ := ex_selectVars srt hsrt (sel_gwdr (glob := false) aicc_bounds.1 hD (sched := fun _ => .serial) (fun _ => trivial) sel_core1)
      (sel_gwdr aicc_bounds.1 hD (fun _ => trivial) sel_core2) (sel_gwdr aicc_bounds.2 hD (fun _ => trivial) sel_core12) hlt
    obtain ⟨r, hr⟩ := key 11 (by norm_num) (X := ⟨_, s.x⟩) (det hs h1)
    refine ⟨s, r, ?_, h1⟩
    unfold gwdrVarRun gwdrSelectVars
    rw [if_neg (by push Not; intro m; norm_num), hW]
    simp only [gwdrEscape, Res.bind]
    rw [hs]
    simp only
    unfold gwdrRun at hr
    rw [hr]
  · obtain ⟨s, hs, h1⟩ := ex_selectVars srt hsrt
      (sel_gwdr (glob := true) (D := fun _ => []) aicc_bounds.1 (by simp) (sched := fun _ => .serial) (fun _ => trivial) sel_core1)
      (sel_gwdr aicc_bounds.1 (by simp) (fun _ => trivial) sel_core2) (sel_gwdr aicc_bounds.2 (by simp) (fun _ => trivial) sel_core12) hlt
    obtain ⟨r, hr⟩ := key 6 (by norm_num) (X := ⟨_, s.x⟩) (det hs h1)
    refine ⟨s, r, ?_, h1⟩
    unfold gwdrVarAutoRun gwdrAutoRun
    rw [hs]
    simp only [Res.bind]
    rw [tame_bandwidths (n := 6) (by norm_num) (fun _ : Fin 2 => ⟨11, false, .Boxcar⟩) (fun _ => rfl) (fun i _ => (i : ℕ)) s.cols.length]
    unfold gwdrRun at hr
    simp only [Nat.cast_ofNat]
    rw [hr]

end Verif.Props

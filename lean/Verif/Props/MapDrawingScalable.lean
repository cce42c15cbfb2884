import Verif.Props.MapDrawingSearch
import Verif.Props.GWRScalableReport

/-! # C147: how the map is drawn does not matter for scalable regression -/

namespace Verif.Props
open Verif Verif.Model Verif.Spec Matrix Classical

variable {n k m p : ℕ}

/-- A row of neighbours on the enlarged map. -/
def enlargedRow (s : ℝ) (r : NeiRow n) : NeiRow n := r.map fun q => (q.1, s * q.2)

theorem tabulate_bind_ok {α β : Type} (g : α → β) : ∀ {m : ℕ} (f : Fin m → Res α),
    Res.tabulate m (fun i => (f i).bind fun a => .ok (g a)) = (Res.tabulate m f).bind fun r => .ok fun i => g (r i)
  | 0, f => by
    simp only [Res.tabulate, Res.bind]
    congr 1
    funext i
    exact i.elim0
  | m + 1, f => by
    simp only [Res.tabulate]
    rw [tabulate_bind_ok g fun i => f i.succ]
    cases f 0 with
    | ok a =>
      simp only [Res.bind]
      cases Res.tabulate m fun i => f i.succ with
      | ok t =>
        simp only [Res.bind]
        congr 1
        funext i
        split <;> rfl
      | _ => rfl
    | _ => rfl

theorem dataNeighbours_scale (c : Crit) (bw s : ℝ) {σ : (Fin n → ℝ) → Equiv.Perm (Fin n)} {D : Fin n → Fin n → ℝ} (i : Fin n)
    (hσ : σ (fun j => s * D i j) = σ (D i)) :
    scaDataNeighbours c bw σ (fun i j => s * D i j) i = (scaDataNeighbours c bw σ D i).bind fun r => .ok (enlargedRow s r) := by
  unfold scaDataNeighbours
  rw [hσ]
  cases c with
  | CV =>
    dsimp only
    split
    · rfl
    · cases scaNearest (σ (D i)) (scaCount bw n - 1) <;> simp [Res.bind, enlargedRow]
  | AIC =>
    dsimp only
    cases scaNearest (σ (D i)) (scaCount bw n) <;> simp [Res.bind, enlargedRow]

theorem neighbours_scale (bw s : ℝ) {σ : (Fin n → ℝ) → Equiv.Perm (Fin n)} {d : Fin n → ℝ} (hσ : σ (fun j => s * d j) = σ d) :
    scaNeighbours bw σ (fun j => s * d j) = (scaNeighbours bw σ d).bind fun r => .ok (enlargedRow s r) := by
  unfold scaNeighbours
  rw [hσ]
  cases scaNearest (σ d) (scaCount bw n) <;> simp [Res.bind, enlargedRow]

theorem bandColumn_scale (s : ℝ) (rows : Fin m → NeiRow n) (width nBw : ℕ) :
    scaBandColumn (fun i => enlargedRow s (rows i)) width nBw = (scaBandColumn rows width nBw).bind fun c => .ok fun i => s * c i := by
  unfold scaBandColumn
  split
  · rfl
  · split
    · simp only [Res.bind, enlargedRow, List.map_map]
      congr 1
      funext i
      simp only [List.getElem?_map]
      cases (rows i)[min 50 nBw - 1]? <;> simp
    · rfl

theorem median_scale {s : ℝ} (hs : 0 < s) (v : Fin m → ℝ) : armaMedian (fun i => s * v i) = (armaMedian v).bind fun q => .ok (s * q) := by
  unfold armaMedian
  have h : ∀ j : ℕ, (sortVec fun i => s * v i)[j]?.getD 0 = s * (sortVec v)[j]?.getD 0 := by
    intro j
    rw [sortVec_scale hs, List.getElem?_map]
    cases (sortVec v)[j]? <;> simp
  simp only [h]
  split
  · rfl
  · split
    · rfl
    · simp only [Res.bind]
      congr 1
      ring

theorem baseWeight_scale {s : ℝ} (hs : 0 < s) (ker : KernelType) (q d : ℝ) : scaBaseWeight ker (s * q) (s * d) = scaBaseWeight ker q d := by
  have h0 := hs.ne'
  have key : ∀ c : ℝ, c ≠ 0 → ((fdiv (s * q) c).bind fun band0 => (fdiv (s * d) band0).bind fun t => Res.ok (Real.exp (-(t ^ 2)))) =
      (fdiv q c).bind fun band0 => (fdiv d band0).bind fun t => .ok (Real.exp (-(t ^ 2))) := by
    intro c hc
    unfold fdiv
    simp only [if_neg hc, Res.bind]
    by_cases hq : q = 0
    · subst hq
      simp
    · have h1 : s * q / c ≠ 0 := div_ne_zero (mul_ne_zero h0 hq) hc
      have h2 : q / c ≠ 0 := div_ne_zero hq hc
      rw [if_neg h1, if_neg h2]
      simp only
      congr 4
      field_simp
  unfold scaBaseWeight
  cases ker with
  | Gaussian => dsimp only; rw [key _ (by positivity)]
  | Exponential => dsimp only; rw [key _ (by norm_num)]
  | _ => rfl

theorem baseRows_scale {s : ℝ} (hs : 0 < s) (ker : KernelType) (rows : Fin m → NeiRow n) (col : Fin m → ℝ) :
    scaBaseRows ker (fun i => enlargedRow s (rows i)) (fun i => s * col i) = scaBaseRows ker rows col := by
  unfold scaBaseRows
  rw [median_scale hs]
  cases armaMedian col with
  | ok q =>
    simp only [Res.bind]
    congr 1
    funext i
    have : ∀ l : NeiRow n, mapRes (fun j => ((scaBaseWeight ker (s * q) j.2).getD .ub).bind fun w => Res.ok (j.1, w)) (enlargedRow s l) =
        mapRes (fun j => ((scaBaseWeight ker q j.2).getD .ub).bind fun w => Res.ok (j.1, w)) l := by
      intro l
      induction l with
      | nil => rfl
      | cons a l ih =>
        unfold enlargedRow at ih ⊢
        simp only [List.map_cons, mapRes, baseWeight_scale hs, ih]
    exact this (rows i)
  | _ => rfl

theorem scaRows_scale {s : ℝ} (hs : 0 < s) (ker : KernelType) (bw : ℝ) {σ : (Fin n → ℝ) → Equiv.Perm (Fin n)} {d : Fin m → Fin n → ℝ}
    (hσ : ∀ i, σ (fun j => s * d i j) = σ (d i)) : scaRows ker bw σ (fun i j => s * d i j) = scaRows ker bw σ d := by
  unfold scaRows
  simp only [fun i => neighbours_scale bw s (hσ i), tabulate_bind_ok]
  cases Res.tabulate m fun i => scaNeighbours bw σ (d i) with
  | ok rows =>
    simp only [Res.bind]
    rw [bandColumn_scale]
    cases scaBandColumn rows (scaCount bw n) ⌊bw⌋₊ with
    | ok col =>
      simp only [Res.bind]
      rw [baseRows_scale hs]
    | _ => rfl
  | _ => rfl

theorem scaChoose_scale {s : ℝ} (hs : 0 < s) (u : ScaCfg n k) (x : Matrix (Fin n) (Fin k) ℝ) (y : Fin n → ℝ) {D : Fin n → Fin n → ℝ}
    (hσ : ∀ i, u.σ (fun j => s * D i j) = u.σ (D i)) : scaChoose u x y (fun i j => s * D i j) = scaChoose u x y D := by
  unfold scaChoose
  split
  · unfold scaSetup
    have hd : Res.tabulate n (scaDataNeighbours u.crit u.bw u.σ fun i j => s * D i j) =
        (Res.tabulate n (scaDataNeighbours u.crit u.bw u.σ D)).bind fun r => .ok fun i => enlargedRow s (r i) := by
      rw [← tabulate_bind_ok]
      congr 1
      funext i
      exact dataNeighbours_scale u.crit u.bw s i (hσ i)
    rw [hd]
    cases Res.tabulate n (scaDataNeighbours u.crit u.bw u.σ D) with
    | ok rows =>
      simp only [Res.bind]
      rw [bandColumn_scale]
      cases scaBandColumn rows (match u.crit with | .CV => scaCount u.bw n - 1 | .AIC => scaCount u.bw n + 1) (scaBw u.bw n) with
      | ok col =>
        simp only [Res.bind]
        rw [baseRows_scale hs]
      | _ => rfl
    | _ => rfl
  · rfl

/-- **C147 (scalable regression).** If all distances are multiplied by one factor, nothing changes in the outcome of a scalable regression, nor in
what it predicts at other places. Equal distances have to be listed in the same order on both maps, as a sort does that only compares. -/
theorem C147_scalable (s : ℝ) (hs : 0 < s) (u : ScaCfg n k) (x : Matrix (Fin n) (Fin k) ℝ) (y : Fin n → ℝ) (D : Fin n → Fin n → ℝ)
    (hσ : ∀ i, u.σ (fun j => s * D i j) = u.σ (D i)) :
    scaRun u x y (fun i j => s * D i j) = scaRun u x y D ∧
    ∀ (m : ℕ) (d : Fin m → Fin n → ℝ), (∀ i, u.σ (fun j => s * d i j) = u.σ (d i)) →
      scaPredict u x y (fun i j => s * D i j) (fun i j => s * d i j) = scaPredict u x y D d := by
  constructor
  · unfold scaRun scaFit
    rw [scaChoose_scale hs u x y hσ, scaRows_scale hs _ _ hσ]
  · intro m d hd
    unfold scaPredict
    rw [scaChoose_scale hs u x y hσ, scaRows_scale hs _ _ hd]

/-- A stable sort lists the points in the same order on both maps. -/
theorem sort_scale {s : ℝ} (hs : 0 < s) (d : Fin n → ℝ) : Tuple.sort (fun j => s * d j) = Tuple.sort d := by
  have h := (Tuple.eq_sort_iff (f := d) (σ := Tuple.sort d)).1 rfl
  refine ((Tuple.eq_sort_iff (f := fun j => s * d j) (σ := Tuple.sort d)).2 ⟨?_, ?_⟩).symm
  · exact fun i j hij => mul_le_mul_of_nonneg_left (h.1 hij) hs.le
  · exact fun i j hij e => h.2 i j hij (mul_left_cancel₀ hs.ne' e)

/-- A run on three points that succeeds, on a map in thousandths of the unit. -/
example : ∃ r, scaRun (exSca 4 Tuple.sort (fun _ => (1, 1 / 100)) fun _ _ => none) ((1 : ℝ) • oneCol 3) ![1, 0, 0] lineD = .ok (some r) ∧
    scaRun (exSca 4 Tuple.sort (fun _ => (1, 1 / 100)) fun _ _ => none) ((1 : ℝ) • oneCol 3) ![1, 0, 0] (fun i j => 1000 * lineD i j) = .ok (some r) := by
  obtain ⟨r, h, -⟩ := ex_sca_report (c := 1) one_ne_zero (P := 4) (σ := Tuple.sort) ex_sorts (p := (1, 1 / 100)) one_ne_zero fun _ _ => none
  exact ⟨r, h, ((C147_scalable 1000 (by norm_num) _ _ _ _ fun i => sort_scale (by norm_num) _).1).trans h⟩

end Verif.Props

import Verif.Model.Mpi
import Verif.Props.GWRBasic

/-! # C30–C32: computations distributed over processes -/

namespace Verif.Props
open Verif Verif.Model Verif.Spec Matrix Classical

variable {n k P p : ℕ}

/-! ## C30: work ranges -/

theorem le_mpiRangeSize (hP : 0 < P) : n ≤ P * mpiRangeSize n P := by
  unfold mpiRangeSize
  have h := Nat.div_add_mod n P
  have hm := Nat.mod_lt n hP
  split
  · rw [Nat.add_zero]; omega
  · rw [Nat.mul_add]; omega

theorem mpiRangeSize_lt (hP : 0 < P) : P * mpiRangeSize n P < n + P := by
  unfold mpiRangeSize
  have h := Nat.div_add_mod n P
  have hm := Nat.mod_lt n hP
  split
  · rw [Nat.add_zero]; omega
  · rw [Nat.mul_add]; omega

theorem mpiRangeSize_pos (hP : 0 < P) (hn : 0 < n) : 0 < mpiRangeSize n P := by
  rcases Nat.eq_zero_or_pos (mpiRangeSize n P) with h | h
  · have := le_mpiRangeSize (n := n) hP
    rw [h] at this; omega
  · exact h

theorem mem_range_iff (hP : 0 < P) {i q : ℕ} (hi : i < n) :
    (mpiFrom n P q ≤ i ∧ i < mpiTo n P q) ↔ i / mpiRangeSize n P = q := by
  have hs := mpiRangeSize_pos hP (Nat.zero_lt_of_lt hi)
  unfold mpiTo mpiFrom
  rw [Nat.div_eq_iff hs]
  have : (q + 1) * mpiRangeSize n P = q * mpiRangeSize n P + mpiRangeSize n P := by ring
  omega

theorem owner_lt (hP : 0 < P) {i : ℕ} (hi : i < n) : i / mpiRangeSize n P < P := by
  have hs := mpiRangeSize_pos hP (Nat.zero_lt_of_lt hi)
  rw [Nat.div_lt_iff_lt_mul hs]
  exact lt_of_lt_of_le hi (le_mpiRangeSize hP)

/-- **C30 (cover, disjoint).** For every number of observations and every number of processes, each observation lies in the range
of exactly one process. -/
theorem C30_ranges_partition (n P : ℕ) (hP : 0 < P) (i : ℕ) (hi : i < n) :
    ∃! q, q < P ∧ mpiFrom n P q ≤ i ∧ i < mpiTo n P q := by
  refine ⟨i / mpiRangeSize n P, ⟨owner_lt hP hi, (mem_range_iff hP hi).2 rfl⟩, ?_⟩
  rintro q ⟨-, hq⟩
  exact ((mem_range_iff hP hi).1 hq).symm

/-- **C30 (balanced).** No process has more observations than the ceiling of `n / P`. -/
theorem C30_ranges_balanced (n P : ℕ) (hP : 0 < P) (q : ℕ) : P * (mpiTo n P q - mpiFrom n P q) < n + P := by
  refine lt_of_le_of_lt (Nat.mul_le_mul_left P ?_) (mpiRangeSize_lt hP)
  unfold mpiTo; omega

/-- **C30 (well formed).** All processes have a non-empty range as soon as there are more observations than the square of the
number of workers. -/
theorem C30_ranges_nonempty (n P : ℕ) (hP : 0 < P) (hn : (P - 1) * (P - 1) < n) (q : ℕ) (hq : q < P) :
    mpiFrom n P q < mpiTo n P q ∧ mpiTo n P q ≤ n := by
  have hs := mpiRangeSize_pos hP (Nat.zero_lt_of_lt hn)
  refine ⟨?_, Nat.min_le_right _ _⟩
  have h1 := mpiRangeSize_lt (n := n) hP
  have key : q * mpiRangeSize n P < n := by
    obtain ⟨w, rfl⟩ : ∃ w, P = w + 1 := ⟨P - 1, by omega⟩
    set s := mpiRangeSize n (w + 1)
    have h2 : (w + 1) * s ≤ n + w := by omega
    have h3 : q * s ≤ w * s := Nat.mul_le_mul_right s (by omega)
    simp only [Nat.add_sub_cancel] at hn
    by_contra hc
    have h4 : n ≤ w * s := by omega
    have h5 : (w + 1) * s = w * s + s := by ring
    have h6 : s ≤ w := by omega
    have h7 : w * s ≤ w * w := Nat.mul_le_mul_left w h6
    omega
  unfold mpiTo mpiFrom; omega

/-- **C30 (disagreement).** "Well formed for every `n` and `P`" is false: with five observations and four processes the last
process gets the range from 6 to 5. -/
theorem C30_malformed_range : mpiFrom 5 4 3 = 6 ∧ mpiTo 5 4 3 = 5 := by
  constructor <;> simp [mpiFrom, mpiTo, mpiRangeSize]

example : ∀ q < 3, mpiFrom 10 3 q < mpiTo 10 3 q ∧ mpiTo 10 3 q ≤ 10 := fun q hq =>
  C30_ranges_nonempty 10 3 (by norm_num) (by norm_num) q hq

/-! ## C30: gathering -/

/-- The messages a master receives in one gathering phase: every tag from every worker exactly once, in any order. -/
structure Arrivals {τ : Type} (msgs : List (Fin (p + 1) × τ)) : Prop where
  once : msgs.Nodup
  all : ∀ q t, (q, t) ∈ msgs ↔ q ≠ 0

/-- The process that owns an observation. -/
def ownerOf (p : ℕ) (i : Fin n) : Fin (p + 1) := ⟨i.val / mpiRangeSize n (p + 1), owner_lt (Nat.succ_pos p) i.isLt⟩

theorem mem_owner (i : Fin n) (q : Fin (p + 1)) :
    (mpiFrom n (p + 1) q ≤ i.val ∧ i.val < mpiTo n (p + 1) q) ↔ q = ownerOf p i := by
  rw [mem_range_iff (Nat.succ_pos p) i.isLt]
  unfold ownerOf
  rw [Fin.ext_iff]
  exact eq_comm

theorem workRange_sum {M : Type} [AddCommMonoid M] (f : Fin n → M) (a b : ℕ) :
    ((workRange n a b).map f).sum = ∑ i, if a ≤ i.val ∧ i.val < b then f i else 0 := by
  rw [← sum_workRange, workRange_all]
  unfold workRange
  generalize List.finRange n = l
  induction l with
  | nil => simp
  | cons c l ih =>
    by_cases h : a ≤ c.val ∧ c.val < b
    · rw [List.filter_cons_of_pos (by simpa using h)]; simp only [List.map_cons, List.sum_cons, if_pos h, ih]
    · rw [List.filter_cons_of_neg (by simpa using h)]; simp only [List.map_cons, List.sum_cons, if_neg h, ih, zero_add]

/-- Adding up per-process totals gives the overall total. -/
theorem sum_ranges {M : Type} [AddCommMonoid M] (f : Fin n → M) :
    ∑ q : Fin (p + 1), ((workRange n (mpiFrom n (p + 1) q) (mpiTo n (p + 1) q)).map f).sum = ∑ i, f i := by
  simp only [workRange_sum, mem_owner]
  rw [Finset.sum_comm]
  refine Finset.sum_congr rfl fun i _ => ?_
  simp

theorem recv_betas (acc : Fin (p + 1) → FitAcc n k) (i : Fin n) : ∀ (msgs : List (Fin (p + 1) × FitTag)) (m : MpiFit n k (p + 1)),
    ((ownerOf p i, FitTag.Betas) ∈ msgs ∨ m.betas i = (acc (ownerOf p i)).betas i) →
    (msgs.foldl (mpiRecv acc) m).betas i = (acc (ownerOf p i)).betas i
  | [], m, h => by simpa using h
  | (q, t) :: msgs, m, h => by
    rw [List.foldl_cons]
    apply recv_betas acc i msgs
    rcases h with h | h
    · rcases List.mem_cons.1 h with h | h
      · obtain ⟨rfl, rfl⟩ := Prod.mk.inj h
        right
        simp only [mpiRecv]
        exact if_pos ((mem_owner i _).2 rfl)
      · exact Or.inl h
    · right
      cases t <;> simp only [mpiRecv, h]
      split
      · rename_i hm
        rw [(mem_owner i q).1 hm]
      · rfl

theorem recv_se (acc : Fin (p + 1) → FitAcc n k) (i : Fin n) : ∀ (msgs : List (Fin (p + 1) × FitTag)) (m : MpiFit n k (p + 1)),
    ((ownerOf p i, FitTag.BetasSE) ∈ msgs ∨ m.se i = (acc (ownerOf p i)).se i) →
    (msgs.foldl (mpiRecv acc) m).se i = (acc (ownerOf p i)).se i
  | [], m, h => by simpa using h
  | (q, t) :: msgs, m, h => by
    rw [List.foldl_cons]
    apply recv_se acc i msgs
    rcases h with h | h
    · rcases List.mem_cons.1 h with h | h
      · obtain ⟨rfl, rfl⟩ := Prod.mk.inj h
        right
        simp only [mpiRecv]
        exact if_pos ((mem_owner i _).2 rfl)
      · exact Or.inl h
    · right
      cases t <;> simp only [mpiRecv, h]
      split
      · rename_i hm
        rw [(mem_owner i q).1 hm]
      · rfl

theorem recv_shat (acc : Fin P → FitAcc n k) (q : Fin P) : ∀ (msgs : List (Fin P × FitTag)) (m : MpiFit n k P),
    ((q, FitTag.SHat) ∈ msgs ∨ m.shatAll q = (acc q).shat) → (msgs.foldl (mpiRecv acc) m).shatAll q = (acc q).shat
  | [], m, h => by simpa using h
  | (r, t) :: msgs, m, h => by
    rw [List.foldl_cons]
    apply recv_shat acc q msgs
    rcases h with h | h
    · rcases List.mem_cons.1 h with h | h
      · obtain ⟨rfl, rfl⟩ := Prod.mk.inj h
        right
        simp [mpiRecv]
      · exact Or.inl h
    · right
      cases t <;> simp only [mpiRecv, h]
      by_cases hr : q = r
      · subst hr; simp
      · rw [Function.update_of_ne hr, h]

theorem recv_qdiag (acc : Fin P → FitAcc n k) (q : Fin P) : ∀ (msgs : List (Fin P × FitTag)) (m : MpiFit n k P),
    ((q, FitTag.QDiag) ∈ msgs ∨ m.qdiagAll q = (acc q).qdiag) → (msgs.foldl (mpiRecv acc) m).qdiagAll q = (acc q).qdiag
  | [], m, h => by simpa using h
  | (r, t) :: msgs, m, h => by
    rw [List.foldl_cons]
    apply recv_qdiag acc q msgs
    rcases h with h | h
    · rcases List.mem_cons.1 h with h | h
      · obtain ⟨rfl, rfl⟩ := Prod.mk.inj h
        right
        simp [mpiRecv]
      · exact Or.inl h
    · right
      cases t <;> simp only [mpiRecv, h]
      by_cases hr : q = r
      · subst hr; simp
      · rw [Function.update_of_ne hr, h]

/-- **C30 (fit).** Whenever every worker has work, a distributed fit gives the serial coefficients, standard error terms, traces and
Q diagonal, for every number of processes and every order in which the workers' messages arrive. -/
theorem C30_fit_any_arrival_order (x : Matrix (Fin n) (Fin k) ℝ) (y : Fin n → ℝ) (W : Fin n → Fin n → ℝ) (sS sC : Bool)
    (hne : ∀ q : Fin (p + 1), q ≠ 0 → mpiFrom n (p + 1) q < mpiTo n (p + 1) q)
    (g1 : Fin (p + 1) → Fin 2 → ℝ) (g2 : Fin (p + 1) → Fin n → ℝ) (msgs : List (Fin (p + 1) × FitTag)) (hm : Arrivals msgs)
    (a : FitAcc n k) (h : fitCoreSerial x y W 0 n sS sC NoStop = .ok (a, false)) :
    fitMpi p x y W sS sC g1 g2 msgs = .ok ⟨a.betas, a.se, a.shat, a.qdiag⟩ := by
  obtain ⟨hpd, ha⟩ := fitCoreSerial_ok h
  have hpart : ∀ q : Fin (p + 1), ∃ aq, fitCoreSerial x y W (mpiFrom n (p + 1) q) (mpiTo n (p + 1) q) sS sC NoStop = .ok (aq, false) ∧
      CoreFit x y W (mpiFrom n (p + 1) q) (mpiTo n (p + 1) q) sS sC aq (fitAt x y W) := fun q =>
    fit_of_posDef x y W _ _ sS sC fun i _ _ => hpd i (Nat.zero_le _) i.isLt
  choose acc hacc hcore using hpart
  have htab : (Res.tabulate (p + 1) fun q => fitCoreSerial x y W (mpiFrom n (p + 1) q) (mpiTo n (p + 1) q) sS sC (fun _ => false)) =
      .ok (fun q => (acc q, false)) := Res.tabulate_eq_ok.2 fun q => hacc q
  have hno : ¬ ∃ q : Fin (p + 1), q ≠ 0 ∧ mpiTo n (p + 1) q ≤ mpiFrom n (p + 1) q := by
    rintro ⟨q, hq, hle⟩
    exact absurd (hne q hq) (by omega)
  unfold fitMpi
  rw [if_neg hno, htab]
  simp only [Res.bind, Res.ok.injEq]
  set m0 : MpiFit n k (p + 1) := ⟨(acc 0).betas, (acc 0).se, Function.update g1 0 (acc 0).shat,
    Function.update g2 0 (acc 0).qdiag⟩ with hm0
  have r1 : (msgs.foldl (mpiRecv acc) m0).betas = a.betas := by
    funext i
    have ho := (mem_owner (p := p) i (ownerOf p i)).2 rfl
    have := recv_betas acc i msgs m0 (by
      by_cases h0 : ownerOf p i = 0
      · right; rw [h0]
      · left; exact (hm.all _ _).2 h0)
    rw [this, (hcore _).betas i ho.1 ho.2, ha.betas i (Nat.zero_le _) i.isLt]
  have r2 : (msgs.foldl (mpiRecv acc) m0).se = a.se := by
    funext i
    have ho := (mem_owner (p := p) i (ownerOf p i)).2 rfl
    have := recv_se acc i msgs m0 (by
      by_cases h0 : ownerOf p i = 0
      · right; rw [h0]
      · left; exact (hm.all _ _).2 h0)
    rw [this, (hcore _).se i ho.1 ho.2, ha.se i (Nat.zero_le _) i.isLt]
  have r3 : ∑ q, (msgs.foldl (mpiRecv acc) m0).shatAll q = a.shat := by
    have : ∀ q, (msgs.foldl (mpiRecv acc) m0).shatAll q = (acc q).shat := fun q => recv_shat acc q msgs m0 (by
      by_cases h0 : q = 0
      · right; rw [h0, hm0]; simp
      · left; exact (hm.all _ _).2 h0)
    simp only [this]
    rw [Finset.sum_congr rfl fun q _ => (hcore q).shat, sum_ranges, ha.shat, sum_workRange]
  have r4 : ∑ q, (msgs.foldl (mpiRecv acc) m0).qdiagAll q = a.qdiag := by
    have : ∀ q, (msgs.foldl (mpiRecv acc) m0).qdiagAll q = (acc q).qdiag := fun q => recv_qdiag acc q msgs m0 (by
      by_cases h0 : q = 0
      · right; rw [h0, hm0]; simp
      · left; exact (hm.all _ _).2 h0)
    simp only [this]
    rw [Finset.sum_congr rfl fun q _ => (hcore q).qdiag, sum_ranges, ha.qdiag, sum_workRange]
  rw [r1, r2, r3, r4]

/-- **C30 (disagreement).** A worker without work makes the distributed fit fail although the serial fit is fine: every data set of
five observations fails on four processes. -/
theorem C30_fit_fails_without_work (x : Matrix (Fin 5) (Fin k) ℝ) (y : Fin 5 → ℝ) (W : Fin 5 → Fin 5 → ℝ) (sS sC : Bool)
    (g1 : Fin 4 → Fin 2 → ℝ) (g2 : Fin 4 → Fin 5 → ℝ) (msgs : List (Fin 4 × FitTag)) :
    fitMpi 3 x y W sS sC g1 g2 msgs = .throw .bounds := by
  unfold fitMpi
  rw [if_pos]
  refine ⟨3, by decide, ?_⟩
  have h := C30_malformed_range
  show mpiTo 5 4 3 ≤ mpiFrom 5 4 3
  omega

theorem foldl_add_src {M : Type} [AddCommMonoid M] (f : Fin (p + 1) → M) (srcs : List (Fin (p + 1))) (hnd : srcs.Nodup)
    (hall : ∀ q, q ∈ srcs ↔ q ≠ 0) : srcs.foldl (fun b q => b + f q) (f 0) = ∑ q, f q := by
  have h1 : srcs.foldl (fun b q => b + f q) (f 0) = f 0 + (srcs.map f).sum := by
    generalize f 0 = b
    clear hnd hall
    induction srcs generalizing b with
    | nil => simp
    | cons q l ih => rw [List.foldl_cons, ih, List.map_cons, List.sum_cons, add_assoc]
  have h2 : (srcs.map f).sum = ∑ q ∈ Finset.univ.erase (0 : Fin (p + 1)), f q := by
    have : Finset.univ.erase (0 : Fin (p + 1)) = srcs.toFinset := by
      ext q; simp [hall]
    rw [this, List.sum_toFinset f hnd]
  rw [h1, h2, Finset.add_sum_erase _ _ (Finset.mem_univ _)]

/-- Summing the processes' zero-filled coefficient matrices gives the whole matrix. -/
theorem sum_parts (r : Fin (p + 1) → Matrix (Fin n) (Fin k) ℝ) (b : Matrix (Fin n) (Fin k) ℝ)
    (hin : ∀ (q : Fin (p + 1)) (i : Fin n), mpiFrom n (p + 1) q ≤ i.val → i.val < mpiTo n (p + 1) q → r q i = b i)
    (hout : ∀ (q : Fin (p + 1)) (i : Fin n), ¬ (mpiFrom n (p + 1) q ≤ i.val ∧ i.val < mpiTo n (p + 1) q) → r q i = 0) : ∑ q, r q = b := by
  funext i
  have h1 : (∑ q, r q) i = ∑ q, r q i := Finset.sum_apply i _ _
  rw [h1, Finset.sum_eq_single (ownerOf p i)]
  · have ho := (mem_owner (p := p) i (ownerOf p i)).2 rfl
    exact hin _ i ho.1 ho.2
  · intro q _ hq
    exact hout q i fun h => hq ((mem_owner i q).1 h)
  · intro h; exact absurd (Finset.mem_univ _) h

/-- **C30 (cross-validation score).** The distributed cross-validation score is the serial residual sum of squares of leave-one-out
fits, for every number of processes (also idle ones) and every arrival order. -/
theorem C30_cv_any_arrival_order (x : Matrix (Fin n) (Fin k) ℝ) (y : Fin n → ℝ) (W : Fin n → Fin n → ℝ)
    (srcs : List (Fin (p + 1))) (hnd : srcs.Nodup) (hall : ∀ q, q ∈ srcs ↔ q ≠ 0)
    (b : Matrix (Fin n) (Fin k) ℝ) (h : fitCoreCVSerial x y W 0 n NoStop = .ok (b, false)) :
    criterionCVMpi p x y W srcs = .ok (rss x y b) := by
  obtain ⟨h1, -⟩ := betaLoop_ok (nodup_workRange n 0 n) h
  have hpart : ∀ q : Fin (p + 1), ∃ bq, fitCoreCVSerial x y W (mpiFrom n (p + 1) q) (mpiTo n (p + 1) q) NoStop = .ok (bq, false) ∧
      (∀ i : Fin n, mpiFrom n (p + 1) q ≤ i.val → i.val < mpiTo n (p + 1) q → bq i = b i) ∧
      (∀ i : Fin n, ¬ (mpiFrom n (p + 1) q ≤ i.val ∧ i.val < mpiTo n (p + 1) q) → bq i = 0) := by
    intro q
    have hall' : ∀ i ∈ workRange n (mpiFrom n (p + 1) q) (mpiTo n (p + 1) q), localBeta x y (cvWeight W i) = .ok (b i) := fun i _ =>
      h1 i (mem_workRange.2 ⟨Nat.zero_le _, i.isLt⟩)
    have e : fitCoreCVSerial x y W (mpiFrom n (p + 1) q) (mpiTo n (p + 1) q) NoStop = _ :=
      serialFor_ok b _ 0 _ (fun _ _ => rfl) hall'
    refine ⟨_, e, ?_⟩
    obtain ⟨c1, c2⟩ := betaLoop_ok (nodup_workRange n _ _) e
    refine ⟨fun i ha hb => ?_, fun i hi => c2 i fun hm => hi (mem_workRange.1 hm)⟩
    have hi := mem_workRange.2 ⟨ha, hb⟩
    exact Res.ok.inj ((c1 i hi).symm.trans (hall' i hi))
  choose r hr hin hout using hpart
  have htab : (Res.tabulate (p + 1) fun q => fitCoreCVSerial x y W (mpiFrom n (p + 1) q) (mpiTo n (p + 1) q) (fun _ => false)) =
      .ok (fun q => (r q, false)) := Res.tabulate_eq_ok.2 fun q => hr q
  unfold criterionCVMpi
  rw [htab]
  simp only [Res.bind, Res.ok.injEq]
  rw [foldl_add_src r srcs hnd hall, sum_parts r b hin hout]

theorem shatLoop_ok {x : Matrix (Fin n) (Fin k) ℝ} {y : Fin n → ℝ} {W : Fin n → Fin n → ℝ} (f s : ℕ)
    (hpd : ∀ i : Fin n, f ≤ i.val → i.val < s → (xtwx x (W i)).PosDef) :
    ∃ b, fitCoreSHatSerial x y W f s NoStop =
        .ok ((b, ((workRange n f s).map fun i => shatRow i (fitAt x y W i)).sum), false) ∧
      (∀ i : Fin n, f ≤ i.val → i.val < s → b i = (fitAt x y W i).beta) ∧ (∀ i : Fin n, ¬ (f ≤ i.val ∧ i.val < s) → b i = 0) := by
  have hr : ∀ i ∈ workRange n f s, localFit x y (W i) (x i) = .ok (fitAt x y W i) := fun i hi =>
    localFit_fitAt (hpd i (mem_workRange.1 hi).1 (mem_workRange.1 hi).2)
  have e : fitCoreSHatSerial x y W f s NoStop = _ := serialFor_ok (fitAt x y W) _ 0 _ (fun _ _ => rfl) hr
  have hfold : ∀ (l : List (Fin n)) (a : Matrix (Fin n) (Fin k) ℝ × (Fin 2 → ℝ)),
      l.foldl (fun s i => shatUpd i (fitAt x y W i) s) a =
        (l.foldl (fun g i => setRow i (fitAt x y W i).beta g) a.1,
          a.2 + (l.map fun i => shatRow i (fitAt x y W i)).sum) := by
    intro l
    induction l with
    | nil => intro a; exact Prod.ext rfl (by simp)
    | cons c l ih => intro a; rw [List.foldl_cons, ih]; exact Prod.ext rfl (by simp [shatUpd, add_assoc])
  rw [hfold, show ((0, 0) : Matrix (Fin n) (Fin k) ℝ × (Fin 2 → ℝ)).2 = 0 from rfl, zero_add] at e
  have hid : ((workRange n f s).map fun i => i).Nodup := by simpa using nodup_workRange n f s
  refine ⟨_, e, fun i ha hb => ?_, fun i hi => ?_⟩
  · exact foldl_update (fun i => i) (fun i => (fitAt x y W i).beta) _ _ hid i (mem_workRange.2 ⟨ha, hb⟩)
  · exact foldl_update_other (fun i => i) (fun i => (fitAt x y W i).beta) _ _ i (by simpa using fun h => hi (mem_workRange.1 h))

theorem fold_aic (r : Fin (p + 1) → Matrix (Fin n) (Fin k) ℝ × (Fin 2 → ℝ)) : ∀ (msgs : List (Fin (p + 1) × AICTag))
    (s : Matrix (Fin n) (Fin k) ℝ × (Fin 2 → ℝ)),
    msgs.foldl (aicRecv r) s =
    (s.1 + (msgs.map fun m => if m.2 = .Betas then (r m.1).1 else 0).sum,
      s.2 + (msgs.map fun m => if m.2 = .SHat then (r m.1).2 else 0).sum)
  | [], s => by simp
  | (q, .SHat) :: msgs, s => by rw [List.foldl_cons, fold_aic r msgs]; simp [aicRecv, add_assoc]
  | (q, .Betas) :: msgs, s => by rw [List.foldl_cons, fold_aic r msgs]; simp [aicRecv, add_assoc]

theorem sum_msgs {M τ : Type} [AddCommMonoid M] [DecidableEq τ] (f : Fin (p + 1) → M) (t : τ) (msgs : List (Fin (p + 1) × τ))
    (hm : Arrivals msgs) : f 0 + (msgs.map fun m => if m.2 = t then f m.1 else 0).sum = ∑ q, f q := by
  rw [← List.sum_toFinset _ hm.once, ← Finset.add_sum_erase _ f (Finset.mem_univ (0 : Fin (p + 1)))]
  congr 1
  rw [← Finset.sum_filter]
  symm
  refine Finset.sum_bij (fun q _ => (q, t)) ?_ ?_ ?_ ?_
  · intro q hq
    simp only [Finset.mem_filter, List.mem_toFinset, and_true]
    exact (hm.all q t).2 (Finset.ne_of_mem_erase hq)
  · intro a _ b _ h; exact (Prod.mk.inj h).1
  · rintro ⟨q, t'⟩ hq
    simp only [Finset.mem_filter, List.mem_toFinset] at hq
    exact ⟨q, Finset.mem_erase.2 ⟨(hm.all q t').1 hq.1, Finset.mem_univ _⟩, by rw [← hq.2]⟩
  · intro q _; rfl

/-- **C30 (AICc score).** The distributed AICc (of a bandwidth, or of a set of variables) is the serial AICc of the same
coefficients and trace, for every number of processes and every arrival order. -/
theorem C30_aic_any_arrival_order (x : Matrix (Fin n) (Fin k) ℝ) (y : Fin n → ℝ) (W : Fin n → Fin n → ℝ)
    (msgs : List (Fin (p + 1) × AICTag)) (hm : Arrivals msgs)
    (b : Matrix (Fin n) (Fin k) ℝ) (shat : Fin 2 → ℝ) (h : fitCoreSHatSerial x y W 0 n NoStop = .ok ((b, shat), false)) :
    criterionAICMpi p x y W msgs = aicc x y b (shat 0) := by
  have hpd : ∀ i : Fin n, (xtwx x (W i)).PosDef := fun i => by
    obtain ⟨r, hr⟩ := serialFor_complete _ _ _ _ h i (mem_workRange.2 ⟨Nat.zero_le _, i.isLt⟩)
    exact (localFit_eq_ok.1 hr).1
  obtain ⟨b0, e0, hb0, -⟩ := shatLoop_ok (x := x) (y := y) (W := W) 0 n (fun i _ _ => hpd i)
  have hpart : ∀ q : Fin (p + 1), _ := fun q =>
    shatLoop_ok (x := x) (y := y) (W := W) (mpiFrom n (p + 1) q) (mpiTo n (p + 1) q) (fun i _ _ => hpd i)
  choose r hr hin hout using hpart
  rw [e0] at h
  obtain ⟨⟨rfl, rfl⟩, -⟩ := by simpa only [Res.ok.injEq, Prod.mk.injEq] using h
  have htab : (Res.tabulate (p + 1) fun q => fitCoreSHatSerial x y W (mpiFrom n (p + 1) q) (mpiTo n (p + 1) q) (fun _ => false)) =
      .ok (fun q => ((r q, ((workRange n (mpiFrom n (p + 1) q) (mpiTo n (p + 1) q)).map fun i => shatRow i (fitAt x y W i)).sum), false)) :=
    Res.tabulate_eq_ok.2 fun q => hr q
  unfold criterionAICMpi
  rw [htab]
  simp only [Res.bind]
  rw [fold_aic (fun q => (r q, ((workRange n (mpiFrom n (p + 1) q) (mpiTo n (p + 1) q)).map fun i => shatRow i (fitAt x y W i)).sum))]
  simp only
  rw [sum_msgs (fun q => r q) AICTag.Betas msgs hm,
    sum_msgs (fun q : Fin (p + 1) => ((workRange n (mpiFrom n (p + 1) q) (mpiTo n (p + 1) q)).map fun i => shatRow i (fitAt x y W i)).sum)
      AICTag.SHat msgs hm, sum_ranges, sum_workRange]
  rw [sum_parts r b0 (fun q i ha hb => by rw [hin q i ha hb, hb0 i (Nat.zero_le _) i.isLt]) hout]

/-- Arrival orders exist: two workers, messages interleaved and out of order. -/
theorem ex_arrivals : Arrivals (p := 2) [(2, AICTag.Betas), (1, .SHat), (2, .SHat), (1, .Betas)] where
  once := by decide
  all := by
    intro q t
    fin_cases q <;> cases t <;> simp

theorem ex_arrivals_fit : Arrivals (p := 1) [(1, FitTag.QDiag), (1, .SHat), (1, .Betas), (1, .BetasSE)] where
  once := by decide
  all := by
    intro q t
    fin_cases q <;> cases t <;> simp

/-- The hypotheses of the gathering theorem are met: three observations on two processes. -/
example : ∃ a, fitCoreSerial exX ![1, 3, 2] exW 0 3 true true NoStop = .ok (a, false) ∧
    fitMpi 1 exX ![1, 3, 2] exW true true (fun _ _ => 7) (fun _ _ => 9)
      [(1, FitTag.QDiag), (1, .SHat), (1, .Betas), (1, .BetasSE)] = .ok ⟨a.betas, a.se, a.shat, a.qdiag⟩ := by
  obtain ⟨a, ha⟩ := ex_fit ![1, 3, 2] true true
  refine ⟨a, ha, C30_fit_any_arrival_order _ _ _ _ _ (fun q _ => ?_) _ _ _ ex_arrivals_fit a ha⟩
  exact (C30_ranges_nonempty 3 2 (by norm_num) (by norm_num) q q.isLt).1

/-! ## C31 -/

/-- **C31 (what it computes).** With one process the combined vector is the coefficient vector; with two or more every negative
coefficient is replaced by zero. -/
theorem C31_combined (beta : Fin n → ℝ) (i : Fin n) :
    allreduceMax 0 (partVec 1 beta) i = beta i ∧
    allreduceMax (p + 1) (partVec (p + 2) beta) i = max (beta i) 0 := by
  constructor
  · unfold allreduceMax
    apply le_antisymm
    · refine Finset.sup'_le _ _ fun q _ => ?_
      have ho := (mem_owner (p := 0) i q).2 (Fin.ext (by omega))
      unfold partVec; rw [if_pos ho]
    · refine Finset.le_sup'_of_le _ (Finset.mem_univ (0 : Fin 1)) ?_
      have ho := (mem_owner (p := 0) i (0 : Fin 1)).2 (Fin.ext (by omega))
      unfold partVec; rw [if_pos ho]
  · unfold allreduceMax
    apply le_antisymm
    · refine Finset.sup'_le _ _ fun q _ => ?_
      unfold partVec
      split
      · exact le_max_left _ _
      · exact le_max_right _ _
    · refine max_le ?_ ?_
      · refine Finset.le_sup'_of_le _ (Finset.mem_univ (ownerOf (p + 1) i)) ?_
        unfold partVec; rw [if_pos ((mem_owner (p := p + 1) i _).2 rfl)]
      · obtain ⟨q, hq⟩ := exists_ne (ownerOf (p + 1) i)
        refine Finset.le_sup'_of_le _ (Finset.mem_univ q) ?_
        unfold partVec; rw [if_neg fun h => hq ((mem_owner (p := p + 1) i q).1 h)]

/-- **C31 (partial).** Combining the partial vectors yields the coefficients when none of them is negative. Missing: negative
coefficients on two or more processes, for which the claim is false (`C31_negative_coefficients_lost`). -/
theorem C31_nonneg_partial (p : ℕ) (beta : Fin n → ℝ) (h : ∀ i, 0 ≤ beta i) : allreduceMax p (partVec (p + 1) beta) = beta := by
  funext i
  cases p with
  | zero => exact (C31_combined (p := 0) beta i).1
  | succ p => rw [(C31_combined (p := p) beta i).2, max_eq_left (h i)]

/-- **C31 (disagreement).** With two or more processes the combined vector is the coefficient vector only if no coefficient is
negative. -/
theorem C31_negative_coefficients_lost (p : ℕ) (beta : Fin n → ℝ) (i : Fin n) (h : beta i < 0) :
    allreduceMax (p + 1) (partVec (p + 2) beta) i ≠ beta i := by
  rw [(C31_combined (p := p) beta i).2, max_eq_right h.le]
  exact fun h' => by rw [← h'] at h; exact lt_irrefl _ h

example : allreduceMax 1 (partVec 2 ![2, -1, 3]) (1 : Fin 3) = 0 := by
  rw [(C31_combined (p := 0) ![2, -1, 3] 1).2]; simp

/-! ## C32 -/

/-- **C32 (partial).** Let an `N × N` matrix `A` and an `N × nc` matrix `B` be stored in blocks of rows, `rows q` of them at process
`q`, each block in column-major order. Then every process gets its rows of `A * B`. Proved for matrices whose blocks have fewer than
2³¹ entries; missing: larger ones, for which the code overflows (`C32_overflow`). -/
theorem C32_product_partial {P : ℕ} (rows : Fin P → ℕ) (N : ℕ) (hN : ∑ q, rows q = N) (A B : ℕ → ℕ → ℝ)
    (amem : Fin P → ℕ → ℝ) (b : Fin P → ℕ → ℕ → ℝ)
    (hA : ∀ pi i j, i < rows pi → j < N → amem pi (j * rows pi + i) = A (rowsBefore rows pi + i) j)
    (hB : ∀ q l j, l < rows q → b q l j = B (rowsBefore rows q + l) j)
    (hint : ∀ q, rows q * N < 2 ^ 31) (pi : Fin P) :
    ∃ c, matMulMpi rows amem b pi = .ok c ∧
      ∀ i j, i < rows pi → c i j = ∑ l ∈ Finset.range N, A (rowsBefore rows pi + i) l * B l j := by
  refine ⟨_, by
    unfold matMulMpi
    rw [if_neg]
    rintro ⟨root, h⟩
    rw [← Finset.mul_sum, hN] at h
    exact absurd (hint root) (by omega), ?_⟩
  intro i j hi
  have hbound : ∀ q : Fin P, rowsBefore rows q + rows q ≤ N := by
    intro q
    rw [← hN]
    unfold rowsBefore
    rw [← Finset.add_sum_erase _ _ (Finset.mem_univ q), ← Finset.add_sum_erase _ rows (Finset.mem_univ q)]
    simp only [lt_irrefl, if_false, zero_add]
    rw [add_comm]
    refine Nat.add_le_add_left (Finset.sum_le_sum fun q' _ => ?_) _
    split <;> simp
  have hterm : ∀ q : Fin P, ∀ l ∈ Finset.range (rows q),
      amem pi ((∑ q' : Fin P, if q'.val < q.val then rows pi * rows q' else 0) + (l * rows pi + i)) * b q l j =
        A (rowsBefore rows pi + i) (rowsBefore rows q + l) * B (rowsBefore rows q + l) j := by
    intro q l hl
    have hl' := Finset.mem_range.1 hl
    have hd : (∑ q' : Fin P, if q'.val < q.val then rows pi * rows q' else 0) = rows pi * rowsBefore rows q := by
      unfold rowsBefore
      rw [Finset.mul_sum]
      refine Finset.sum_congr rfl fun q' _ => ?_
      split <;> simp
    rw [hd, hB q l j hl', show rows pi * rowsBefore rows q + (l * rows pi + i) = (rowsBefore rows q + l) * rows pi + i by ring,
      hA pi i _ hi (by have := hbound q; omega)]
  refine Eq.trans (Finset.sum_congr rfl fun q _ => Finset.sum_congr rfl (hterm q)) ?_
  -- concatenate the blocks
  have hcat : ∀ (P : ℕ) (rows : Fin P → ℕ) (f : ℕ → ℝ),
      ∑ q : Fin P, ∑ l ∈ Finset.range (rows q), f (rowsBefore rows q + l) = ∑ l ∈ Finset.range (∑ q, rows q), f l := by
    intro P
    induction P with
    | zero => intro rows f; simp
    | succ P ih =>
      intro rows f
      rw [Fin.sum_univ_castSucc, Fin.sum_univ_castSucc (f := rows), Finset.sum_range_add]
      have h1 : ∀ q : Fin P, rowsBefore rows q.castSucc = rowsBefore (fun q : Fin P => rows q.castSucc) q := by
        intro q
        unfold rowsBefore
        rw [Fin.sum_univ_castSucc]
        have : ¬ P < q.val := by omega
        simp [this]
      have h2 : rowsBefore rows (Fin.last P) = ∑ q : Fin P, rows q.castSucc := by
        unfold rowsBefore
        rw [Fin.sum_univ_castSucc]
        simp
      simp only [h1, h2]
      rw [ih (fun q => rows q.castSucc) f]
  rw [hcat P rows (fun l => A (rowsBefore rows pi + i) l * B l j), hN]

/-- **C32 (disagreement).** Counts are 32-bit integers: the product overflows for 100 000 observations on two processes. -/
theorem C32_overflow (amem : Fin 2 → ℕ → ℝ) (b : Fin 2 → ℕ → ℕ → ℝ) (pi : Fin 2) :
    matMulMpi (fun q => mpiTo 100000 2 q - mpiFrom 100000 2 q) amem b pi = .ub := by
  unfold matMulMpi
  rw [if_pos]
  refine ⟨0, ?_⟩
  simp [Fin.sum_univ_two, mpiTo, mpiFrom, mpiRangeSize]

/-- The hypotheses are met for any matrices: store them block by block. -/
example (A B : ℕ → ℕ → ℝ) : ∃ c, matMulMpi ![2, 3] (fun pi a => A (rowsBefore ![2, 3] pi + a % ![2, 3] pi) (a / ![2, 3] pi))
      (fun q l j => B (rowsBefore ![2, 3] q + l) j) 0 = .ok c ∧ ∀ i j, i < 2 → c i j = ∑ l ∈ Finset.range 5, A i l * B l j := by
  obtain ⟨c, hc, h⟩ := C32_product_partial ![2, 3] 5 (by simp [Fin.sum_univ_two]) A B
    (fun pi a => A (rowsBefore ![2, 3] pi + a % ![2, 3] pi) (a / ![2, 3] pi)) (fun q l j => B (rowsBefore ![2, 3] q + l) j)
    (by
      intro pi i j hi _
      have hpos : 0 < (![2, 3] : Fin 2 → ℕ) pi := Nat.zero_lt_of_lt hi
      rw [Nat.add_comm (j * _) i, Nat.add_mul_mod_self_right, Nat.mod_eq_of_lt hi, Nat.add_mul_div_right _ _ hpos,
        Nat.div_eq_of_lt hi, Nat.zero_add])
    (fun _ _ _ _ => rfl) (fun q => by fin_cases q <;> norm_num) 0
  refine ⟨c, hc, fun i j hi => ?_⟩
  rw [h i j hi]
  simp [rowsBefore]

end Verif.Props

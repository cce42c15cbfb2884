import Verif.Props.Kernel
import Verif.Model.KernelCuda
import Mathlib.Data.List.Range
import Mathlib.Data.List.Nodup
import Mathlib.Data.List.Perm.Basic
import Mathlib.Tactic.FinCases

/-!
# C06: agreement of GPU and CPU weights; C33: a kernel launch touches every element exactly once
-/

namespace Verif.Props
open Verif Verif.Model Verif.Spec

theorem dblMax_large : (2147483648 : ℝ) ≤ dblMax := by
  have h : (2 : ℝ) ^ 31 ≤ 2 ^ 1023 := pow_le_pow_right₀ (by norm_num) (by norm_num)
  have h1 : (1 : ℝ) ≤ 2 - 2⁻¹ ^ 52 := by norm_num
  have h2 : (0 : ℝ) ≤ 2 ^ 1023 := by positivity
  unfold dblMax
  calc (2147483648 : ℝ) = 2 ^ 31 := by norm_num
    _ ≤ 2 ^ 1023 := h
    _ = 1 * 2 ^ 1023 := (one_mul _).symm
    _ ≤ _ := mul_le_mul_of_nonneg_right h1 h2

/-- Away from the boundary of a boxcar, and for a positive radius, both implementations compute the same number. -/
theorem cudaKernelAt_eq {k : KernelType} {d r : ℝ} (hr : 0 < r) (hbox : k = .Boxcar → d ≠ r) :
    cudaKernelAt k d r = kernelAt k d r := by
  rw [kernelAt_of_ne hr.ne']
  have hne := hr.ne'
  cases k
  · rw [← kernelAt_of_ne hr.ne']; simp only [cudaKernelAt, kernelAt, gaussianKernel, if_neg hne]; norm_num
  · rw [← kernelAt_of_ne hr.ne']; simp only [cudaKernelAt, kernelAt, exponentialKernel, if_neg hne]
  · simp only [cudaKernelAt, kval, if_neg hne]
    rcases lt_trichotomy d r with h | h | h
    · rw [if_neg (by simpa using h.le), if_pos h]; congr 1; rw [div_pow]; ring
    · subst h; simp [hne]
    · rw [if_pos h, if_neg (by linarith)]
  · simp only [cudaKernelAt, kval, if_neg hne]
    rcases lt_trichotomy d r with h | h | h
    · rw [if_neg (by simpa using h.le), if_pos h]; congr 1; rw [div_pow]; ring
    · subst h; simp [hne]
    · rw [if_pos h, if_neg (by linarith)]
  · simp only [cudaKernelAt, kval]
    have := hbox rfl
    rcases lt_trichotomy d r with h | h | h
    · rw [if_neg (by simpa using h.le), if_pos h]
    · exact absurd h this
    · rw [if_pos h, if_neg (by linarith)]

/-- **C06 (fixed bandwidth), partial.** For a positive fixed bandwidth (below `DBL_MAX`) both devices give the same
weights, provided that no distance equals the bandwidth when the kernel is boxcar. Missing from the full claim: the boxcar
boundary, where they differ (`C06_boxcar_boundary_differs`). -/
theorem C06_fixed_agree_partial (b : BandwidthWeight) {n : ℕ} (dist : Fin n → ℝ) (ha : b.mAdaptive = false)
    (hb : 0 < b.mBandwidth) (hmax : b.mBandwidth ≠ dblMax)
    (hbox : b.mKernel = .Boxcar → ∀ i, dist i ≠ b.mBandwidth) :
    gwWeightCuda b dist = b.weight dist := by
  unfold gwWeightCuda BandwidthWeight.weight kernelVec
  rw [if_neg hmax, ha]
  simp only [Bool.false_eq_true, if_false]
  congr 1
  funext i
  exact cudaKernelAt_eq hb (fun h => hbox h i)

theorem largest_of_kth {n : ℕ} {v : Fin n → ℝ} {t : ℝ} (h : IsKthSmallest v n t) : IsLargest v t := by
  refine ⟨h.1, fun i => ?_⟩
  by_contra hi
  have hle : {i | v i ≤ t}.ncard ≤ ({i}ᶜ : Set (Fin n)).ncard :=
    Set.ncard_le_ncard (fun j (hj : v j ≤ t) e => by rw [Set.mem_singleton_iff] at e; subst e; exact hi hj) (Set.toFinite _)
  have hc : ({i}ᶜ : Set (Fin n)).ncard = n - 1 := by rw [Set.ncard_compl]; simp
  have := h.2.2
  have := i.pos
  omega

/-- On the GPU the radius of a whole number of neighbours is the distance of that neighbour. -/
theorem cuda_adaptive (kernel : KernelType) {n : ℕ} (dist : Fin n → ℝ) (k : ℕ) (t : ℝ)
    (hk1 : 1 ≤ k) (hkn : k ≤ n) (hk31 : k < 2147483648) (ht : IsKthSmallest dist k t) (ht0 : 0 < t)
    (hbox : kernel = .Boxcar → ∀ i, dist i ≠ t) :
    gwWeightCuda ⟨k, true, kernel⟩ dist = (⟨t, false, kernel⟩ : BandwidthWeight).weight dist := by
  have hmax : (k : ℝ) ≠ dblMax := by
    have h1 : (k : ℝ) < 2147483648 := by exact_mod_cast hk31
    have h2 : (2147483648 : ℝ) ≤ dblMax := by linarith [dblMax_large]
    linarith
  have hx : (if (k : ℝ) < n then (k : ℝ) else n) = k := by
    split
    · rfl
    · rename_i h
      have : (n : ℝ) ≤ k := not_lt.1 h
      have : n ≤ k := by exact_mod_cast this
      rw [show n = k by omega]
  unfold gwWeightCuda BandwidthWeight.weight kernelVec
  rw [if_neg hmax]
  simp only [if_true, hx]
  have hk0 : (0 : ℝ) ≤ k := by positivity
  rw [if_pos hk0, Int.floor_natCast]
  have hc : (-2147483648 : ℤ) ≤ (k : ℤ) ∧ (k : ℤ) < 2147483648 := ⟨by omega, by omega⟩
  have hc' : ¬ ((k : ℤ) - 1 < -2147483648) := by omega
  have hlen := sortVec_length dist
  have hr : rawAt (sortVec dist) ((k : ℤ) - 1) = .ok t := by
    unfold rawAt
    rw [dif_pos (by omega)]
    congr 1
    have : ((k : ℤ) - 1).toNat = k - 1 := by omega
    simp only [this]
    exact IsKthSmallest.unique (sorted_get_isKth dist hk1 hkn) ht
  simp only [toInt32, hc, and_self, if_true, Res.ok_bind, predInt32, hc', if_false, hr, Bool.false_eq_true]
  congr 1
  funext i
  exact cudaKernelAt_eq ht0 (fun h => hbox h i)

/-- **C06 (adaptive integer bandwidth), partial.** For an integer adaptive bandwidth `1 ≤ k ≤ n` with positive radius
`t` both devices agree, again except for boxcar with a distance equal to the radius. Missing from the full claim:
fractional bandwidths and bandwidths above `n` (`C06_fractional_differs`, `C06_large_differs`). -/
theorem C06_adaptive_agree_partial (kernel : KernelType) {n : ℕ} (dist : Fin n → ℝ) (k : ℕ) (t : ℝ)
    (hk1 : 1 ≤ k) (hkn : k ≤ n) (hk31 : k < 2147483648) (ht : IsKthSmallest dist k t) (ht0 : 0 < t)
    (hbox : kernel = .Boxcar → ∀ i, dist i ≠ t) :
    gwWeightCuda ⟨k, true, kernel⟩ dist = (⟨k, true, kernel⟩ : BandwidthWeight).weight dist := by
  rw [cuda_adaptive kernel dist k t hk1 hkn hk31 ht ht0 hbox]
  rcases hkn.lt_or_eq with h | rfl
  · rw [C04_adaptive_integer kernel dist k t hk1 h hk31 ht]
  · rw [C04_adaptive_large kernel dist k t (by omega) le_rfl (largest_of_kth ht), div_self (by exact_mod_cast (by omega : k ≠ 0)), one_mul]

/-- **C06 fails at the boxcar boundary**: an observation exactly at the bandwidth has weight 0 on the CPU and 1 on the GPU. -/
theorem C06_boxcar_boundary_differs :
    (⟨1, false, .Boxcar⟩ : BandwidthWeight).weight (fun _ : Fin 1 => 1) = .ok (fun _ => 0) ∧
    gwWeightCuda ⟨1, false, .Boxcar⟩ (fun _ : Fin 1 => 1) = .ok (fun _ => 1) := by
  have hmax : (1 : ℝ) ≠ dblMax := by
    have h2 : (2 : ℝ) ≤ dblMax := by linarith [dblMax_large]
    linarith
  constructor
  · unfold BandwidthWeight.weight
    simp only [Bool.false_eq_true, if_false]
    rw [kernelVec_eq_ok]
    intro i; simp [kernelAt, boxcarKernel, less]
  · unfold gwWeightCuda
    rw [if_neg hmax]
    simp only [Bool.false_eq_true, if_false]
    rw [Res.tabulate_eq_ok]
    intro i; simp [cudaKernelAt]

theorem isKth_pair_one : IsKthSmallest (fun i : Fin 3 => (i : ℝ) + 1) 1 1 := by
  refine ⟨⟨0, by norm_num⟩, ?_, ?_⟩
  · have : {i : Fin 3 | ((i : ℕ) : ℝ) + 1 < 1} = ∅ := by
      ext i; fin_cases i <;> norm_num
    rw [this]; simp
  · have : {i : Fin 3 | ((i : ℕ) : ℝ) + 1 ≤ 1} = {0} := by
      ext i; fin_cases i <;> norm_num
    rw [this]; simp

theorem isKth_pair_two : IsKthSmallest (fun i : Fin 3 => (i : ℝ) + 1) 2 2 := by
  refine ⟨⟨1, by norm_num⟩, ?_, ?_⟩
  · have : {i : Fin 3 | ((i : ℕ) : ℝ) + 1 < 2} = {0} := by
      ext i; fin_cases i <;> norm_num
    rw [this]; simp
  · have : {i : Fin 3 | ((i : ℕ) : ℝ) + 1 ≤ 2} = {0, 1} := by
      ext i; fin_cases i <;> norm_num
    rw [this, Set.ncard_pair (by decide)]

/-- **C06 fails for fractional adaptive bandwidths**: distances 1, 2, 3, bandwidth 1.5, exponential kernel — the CPU
interpolates the radius (1.5), the GPU truncates (1). -/
theorem C06_fractional_differs :
    gwWeightCuda ⟨1 + 1/2, true, .Exponential⟩ (fun i : Fin 3 => (i : ℝ) + 1) ≠
      (⟨1 + 1/2, true, .Exponential⟩ : BandwidthWeight).weight (fun i : Fin 3 => (i : ℝ) + 1) := by
  have hcpu := C04_adaptive_fractional .Exponential (fun i : Fin 3 => (i : ℝ) + 1) 1 (1/2) 1 2 le_rfl (by norm_num)
    (by norm_num) (by norm_num) (by norm_num) isKth_pair_one isKth_pair_two
  intro heq
  rw [show ((1 : ℕ) : ℝ) = 1 by norm_num] at hcpu
  rw [hcpu] at heq
  obtain ⟨w, hw⟩ := C01_fixed_total ⟨(1 - 1/2) * 1 + 1/2 * 2, false, .Exponential⟩
    (fun i : Fin 3 => (i : ℝ) + 1) rfl (by norm_num)
  rw [hw] at heq
  have hmax : (1 : ℝ) + 1/2 ≠ dblMax := by
    have h2 : (2 : ℝ) ≤ dblMax := by linarith [dblMax_large]
    linarith
  unfold gwWeightCuda at heq
  rw [if_neg hmax] at heq
  have hlt : (1 : ℝ) + 1/2 < (3 : ℕ) := by norm_num
  simp only [if_true, if_pos hlt] at heq
  have hf : ⌊(1 : ℝ) + 1/2⌋ = 1 := by rw [Int.floor_eq_iff]; norm_num
  rw [if_pos (by norm_num), hf] at heq
  have hlen := sortVec_length (fun i : Fin 3 => (i : ℝ) + 1)
  have hr : rawAt (sortVec (fun i : Fin 3 => (i : ℝ) + 1)) ((1 : ℤ) - 1) = .ok 1 := by
    unfold rawAt
    rw [dif_pos (by omega)]
    congr 1
    exact IsKthSmallest.unique (sorted_get_isKth _ le_rfl (by norm_num)) isKth_pair_one
  simp only [toInt32, predInt32, Int.reduceNeg, Int.reduceLE, Int.reduceLT, and_self, if_true, Res.ok_bind,
    Int.reduceSub, if_false] at heq
  simp only [Int.reduceSub] at hr
  rw [hr] at heq
  simp only [Res.ok_bind] at heq
  have h1 := Res.tabulate_eq_ok.1 heq 0
  have h2 := weight_ok hw
  obtain ⟨r, hr, -, hk⟩ := h2
  have hr := hr rfl
  have h3 := hk 0
  rw [hr] at h3
  simp only [kernelAt, exponentialKernel, cudaKernelAt] at h1 h3
  norm_num at h1 h3
  rw [← h3] at h1
  have := Real.exp_injective h1
  norm_num at this

/-- **C06 fails for adaptive bandwidths above `n`**: one observation at distance 1, bandwidth 2 — radius 2 on the CPU, 1 on
the GPU. -/
theorem C06_large_differs :
    gwWeightCuda ⟨2, true, .Bisquare⟩ (fun _ : Fin 1 => 1) = .ok (fun _ => 0) ∧
      (⟨2, true, .Bisquare⟩ : BandwidthWeight).weight (fun _ : Fin 1 => 1) = .ok (fun _ => 9/16) := by
  constructor
  · have hmax : (2 : ℝ) ≠ dblMax := by
      have h2 : (3 : ℝ) ≤ dblMax := by linarith [dblMax_large]
      linarith
    unfold gwWeightCuda
    rw [if_neg hmax]
    have hlt : ¬ ((2 : ℝ) < (1 : ℕ)) := by norm_num
    simp only [if_true, if_neg hlt]
    have hr : rawAt (sortVec (fun _ : Fin 1 => (1 : ℝ))) 0 = .ok 1 := by
      simp [rawAt, sortVec]
    simp [toInt32, predInt32, hr, Res.tabulate_eq_ok, cudaKernelAt]
  · rw [C04_adaptive_large .Bisquare _ 2 1 (by norm_num) (by norm_num) ⟨⟨0, rfl⟩, fun _ => le_rfl⟩]
    unfold BandwidthWeight.weight
    simp only [Bool.false_eq_true, if_false]
    rw [kernelVec_eq_ok]
    intro i; norm_num [kernelAt, bisquareKernel, less]

/-! ### kernel launches -/

theorem cudaThread_foldl {α : Type*} (n threads : ℕ) (f mem : ℕ → α) (order : List (ℕ × ℕ)) (i : ℕ) :
    (order.foldl (cudaThread n f threads) mem) i =
      if i < n ∧ ∃ bt ∈ order, bt.1 * threads + bt.2 = i then f i else mem i := by
  induction order generalizing mem with
  | nil => simp
  | cons a as ih =>
    rw [List.foldl_cons, ih]
    by_cases h : i < n ∧ ∃ bt ∈ as, bt.1 * threads + bt.2 = i
    · rw [if_pos h, if_pos]
      exact ⟨h.1, h.2.imp fun bt hb => ⟨List.mem_cons_of_mem _ hb.1, hb.2⟩⟩
    · rw [if_neg h]
      unfold cudaThread
      by_cases hi : a.1 * threads + a.2 ≥ n
      · simp only [if_pos hi]
        rw [if_neg]
        rintro ⟨h1, bt, hbt, e⟩
        rcases List.mem_cons.1 hbt with rfl | hbt
        · omega
        · exact h ⟨h1, bt, hbt, e⟩
      · simp only [if_neg hi]
        by_cases e : i = a.1 * threads + a.2
        · rw [if_pos e, if_pos ⟨by omega, a, by simp, e.symm⟩, e]
        · rw [if_neg e, if_neg]
          rintro ⟨h1, bt, hbt, e'⟩
          rcases List.mem_cons.1 hbt with rfl | hbt
          · exact e e'.symm
          · exact h ⟨h1, bt, hbt, e'⟩

/-- **C33 (launch geometry).** In whatever order the threads of the grid run, a launch computes exactly the elements
`0 … n-1`, each from its own index, and leaves the rest of device memory alone. -/
theorem C33_launch_covers {α : Type*} (n threads : ℕ) (ht : 0 < threads) (f mem : ℕ → α) (order : List (ℕ × ℕ))
    (hp : order.Perm (cudaGrid n threads)) (i : ℕ) :
    cudaLaunch n threads order f mem i = if i < n then f i else mem i := by
  unfold cudaLaunch
  rw [cudaThread_foldl]
  by_cases hi : i < n
  · rw [if_pos hi, if_pos]
    refine ⟨hi, (i / threads, i % threads), ?_, ?_⟩
    · rw [hp.mem_iff]
      unfold cudaGrid
      rw [List.mem_flatMap]
      refine ⟨i / threads, ?_, ?_⟩
      · rw [List.mem_range, Nat.div_lt_iff_lt_mul ht]
        have := Nat.div_add_mod (n + threads - 1) threads
        have := Nat.mod_lt (n + threads - 1) ht
        have h3 : (n + threads - 1) / threads * threads = threads * ((n + threads - 1) / threads) := Nat.mul_comm _ _
        omega
      · rw [List.mem_map]
        exact ⟨i % threads, by simpa using Nat.mod_lt _ ht, rfl⟩
    · rw [Nat.mul_comm]; exact Nat.div_add_mod i threads
  · rw [if_neg hi, if_neg]
    exact fun h => hi h.1

/-- Every index below `n` is computed by exactly one thread of the grid. -/
theorem C33_launch_once (n threads : ℕ) (ht : 0 < threads) (i : ℕ) (hi : i < n) :
    ((cudaGrid n threads).filter (fun bt => bt.1 * threads + bt.2 = i)).length = 1 := by
  have hmem : (i / threads, i % threads) ∈ cudaGrid n threads := by
    unfold cudaGrid
    rw [List.mem_flatMap]
    refine ⟨i / threads, ?_, ?_⟩
    · rw [List.mem_range, Nat.div_lt_iff_lt_mul ht]
      have := Nat.div_add_mod (n + threads - 1) threads
      have := Nat.mod_lt (n + threads - 1) ht
      have h3 : (n + threads - 1) / threads * threads = threads * ((n + threads - 1) / threads) := Nat.mul_comm _ _
      omega
    · rw [List.mem_map]
      exact ⟨i % threads, by simpa using Nat.mod_lt _ ht, rfl⟩
  have hnd : (cudaGrid n threads).Nodup := by
    unfold cudaGrid
    rw [List.nodup_flatMap]
    constructor
    · intro b _
      exact List.Nodup.map (fun a b h => (Prod.mk.inj h).2) List.nodup_range
    · apply List.Pairwise.imp _ (List.nodup_range (n := (n + threads - 1) / threads))
      intro a b hab
      simp only [Function.onFun, List.Disjoint, List.mem_map]
      rintro x ⟨t, _, rfl⟩ ⟨t', _, h'⟩
      exact hab (Prod.mk.inj h').1.symm
  have huniq : ∀ bt ∈ (cudaGrid n threads).filter (fun bt => bt.1 * threads + bt.2 = i), bt = (i / threads, i % threads) := by
    intro bt hbt
    rw [List.mem_filter] at hbt
    obtain ⟨h1, h2⟩ := hbt
    have h2 : bt.1 * threads + bt.2 = i := by simpa using h2
    unfold cudaGrid at h1
    rw [List.mem_flatMap] at h1
    obtain ⟨b, _, hb⟩ := h1
    rw [List.mem_map] at hb
    obtain ⟨t, htm, rfl⟩ := hb
    rw [List.mem_range] at htm
    simp only at h2
    have e1 : i / threads = b := by
      rw [← h2, Nat.mul_comm, Nat.mul_add_div ht, Nat.div_eq_of_lt htm, Nat.add_zero]
    have e2 : i % threads = t := by
      rw [← h2, Nat.mul_comm, Nat.mul_add_mod, Nat.mod_eq_of_lt htm]
    rw [e1, e2]
  have hnd' := hnd.filter (fun bt => decide (bt.1 * threads + bt.2 = i))
  have hin : (i / threads, i % threads) ∈ (cudaGrid n threads).filter (fun bt => bt.1 * threads + bt.2 = i) := by
    rw [List.mem_filter]
    exact ⟨hmem, by simpa [Nat.mul_comm] using Nat.div_add_mod i threads⟩
  generalize hL : (cudaGrid n threads).filter (fun bt => decide (bt.1 * threads + bt.2 = i)) = L at *
  match L, hin, huniq, hnd' with
  | [x], _, _, _ => rfl
  | x :: y :: zs, _, hu, hn =>
    exfalso
    have h1 := hu x (by simp)
    have h2 := hu y (by simp)
    rw [h1, h2] at hn
    simp at hn

example : (cudaGrid 5 4).length = 8 := by decide

end Verif.Props

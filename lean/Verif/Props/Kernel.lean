import Verif.Lemmas.KernelAdaptive

/-!
# C01–C05: properties of the bandwidth weights
-/

namespace Verif.Props
open Verif Verif.Model Verif.Spec

/-- **C01.** Whenever weights are computed for non-negative distances (any kernel; fixed bandwidths must be positive,
adaptive ones can be anything that the code accepts): every weight is in `[0,1]`; a farther observation never
weighs more; an observation at distance 0 has weight 1 — the only exception is an adaptive boxcar whose
radius has collapsed to 0, which gives weight 0 to everybody. -/
theorem C01_weights_proper (b : BandwidthWeight) {n : ℕ} (dist w : Fin n → ℝ)
    (hfix : b.mAdaptive = false → 0 < b.mBandwidth) (hd : ∀ i, 0 ≤ dist i) (h : b.weight dist = .ok w) :
    (∀ i, 0 ≤ w i ∧ w i ≤ 1) ∧ (∀ i j, dist i ≤ dist j → w j ≤ w i) ∧
    (∀ i, dist i = 0 → w i = 1 ∨ (b.mKernel = .Boxcar ∧ b.mAdaptive = true ∧ ∀ j, w j = 0)) := by
  obtain ⟨r, hf, ha, hw⟩ := weight_ok h
  have hr : 0 ≤ r := by
    cases hb : b.mAdaptive
    · rw [hf hb]; exact (hfix hb).le
    · exact adaptiveRadius_nonneg hd (ha hb)
  rcases hr.lt_or_eq with hr | hr
  · have hw' : ∀ i, w i = kval b.mKernel (dist i) r := fun i => by
      have := hw i
      rw [kernelAt_of_ne hr.ne'] at this
      exact (Res.ok.inj this).symm
    refine ⟨fun i => ?_, fun i j hij => ?_, fun i hi => ?_⟩
    · rw [hw' i]; exact ⟨kval_nonneg (hd i), kval_le_one (hd i) hr⟩
    · rw [hw' i, hw' j]; exact kval_mono (hd i) hij hr le_rfl
    · left; rw [hw' i, hi, kval_zero hr]
  · have had : b.mAdaptive = true := by
      cases hb : b.mAdaptive
      · have := hfix hb; rw [← hf hb] at this; linarith
      · rfl
    have har := ha had
    subst hr
    obtain ⟨i0, hi0⟩ := adaptiveRadius_zero hd har
    have hk : b.mKernel = .Boxcar := by
      have := hw i0
      rw [hi0] at this
      cases hk : b.mKernel <;> rw [hk] at this <;>
        simp [kernelAt, gaussianKernel, exponentialKernel, bisquareKernel, tricubeKernel] at this ⊢
    have hz : ∀ j, w j = 0 := by
      intro j
      have := hw j
      rw [hk] at this
      simp only [kernelAt, boxcarKernel, less, if_neg (not_lt.2 (hd j))] at this
      have := Res.ok.inj this
      simpa using this.symm
    refine ⟨fun i => by rw [hz i]; norm_num, fun i j _ => by rw [hz i, hz j], fun i _ => Or.inr ⟨hk, had, hz⟩⟩

/-- Computing weights with a positive fixed bandwidth never fails. -/
theorem C01_fixed_total (b : BandwidthWeight) {n : ℕ} (dist : Fin n → ℝ) (ha : b.mAdaptive = false)
    (hb : 0 < b.mBandwidth) : ∃ w, b.weight dist = .ok w := by
  unfold BandwidthWeight.weight
  rw [ha]
  exact kernelVec_isOk (fun i => ⟨_, kernelAt_of_ne hb.ne'⟩)

example : ∃ w, (⟨2, false, .Bisquare⟩ : BandwidthWeight).weight (fun i : Fin 3 => (i : ℝ)) = .ok w :=
  C01_fixed_total _ _ rfl (by norm_num)

/-- **C02.** With a positive fixed bandwidth: bisquare, tricube and boxcar weights vanish exactly at and beyond the
bandwidth; Gaussian and exponential weights never vanish. -/
theorem C02_support_fixed (b : BandwidthWeight) {n : ℕ} (dist w : Fin n → ℝ) (ha : b.mAdaptive = false)
    (hb : 0 < b.mBandwidth) (hd : ∀ i, 0 ≤ dist i) (h : b.weight dist = .ok w) (i : Fin n) :
    w i = 0 ↔ (b.mKernel ≠ .Gaussian ∧ b.mKernel ≠ .Exponential ∧ b.mBandwidth ≤ dist i) := by
  obtain ⟨r, hf, -, hw⟩ := weight_ok h
  have hr := hf ha
  subst hr
  have hwi := hw i
  rw [kernelAt_of_ne hb.ne'] at hwi
  have e := (Res.ok.inj hwi)
  have hp := kval_pos_iff (k := b.mKernel) (hd i) hb
  have h0 := kval_nonneg (k := b.mKernel) (b := b.mBandwidth) (hd i)
  rw [← e]
  constructor
  · intro hz
    rw [hz] at hp
    simp only [lt_irrefl, false_iff, not_or, not_lt] at hp
    exact hp
  · rintro ⟨h1, h2, h3⟩
    by_contra hne
    have : 0 < kval b.mKernel (dist i) b.mBandwidth := lt_of_le_of_ne h0 (Ne.symm hne)
    rcases hp.1 this with h | h | h
    · exact h1 h
    · exact h2 h
    · linarith

example : (⟨2, false, .Bisquare⟩ : BandwidthWeight).mAdaptive = false ∧
    (0 : ℝ) < (⟨2, false, .Bisquare⟩ : BandwidthWeight).mBandwidth := ⟨rfl, by norm_num⟩

/-- **C02, adaptive integer bandwidth.** With the `k`-th smallest distance `t > 0` as radius the same holds, with `t`. -/
theorem C02_support_adaptive (b : BandwidthWeight) {n : ℕ} (dist w : Fin n → ℝ) (k : ℕ) (t : ℝ)
    (ha : b.mAdaptive = true) (hk1 : 1 ≤ k) (hkn : k < n) (hb : b.mBandwidth = k)
    (ht : IsKthSmallest dist k t) (ht0 : 0 < t) (hd : ∀ i, 0 ≤ dist i) (h : b.weight dist = .ok w) (i : Fin n) :
    w i = 0 ↔ (b.mKernel ≠ .Gaussian ∧ b.mKernel ≠ .Exponential ∧ t ≤ dist i) := by
  obtain ⟨r, -, hr, hw⟩ := weight_ok h
  have hrad := hr ha
  have hlt : b.mBandwidth < n := by rw [hb]; exact_mod_cast hkn
  obtain ⟨l, u⟩ := adaptiveRadius_ok_lt hrad hlt
  obtain ⟨p, q, e⟩ := adaptiveRadius_interp dist l hlt u
  rw [hrad] at e
  have e := Res.ok.inj e
  simp only [hb, Nat.floor_natCast, sub_self, mul_zero, add_zero] at e
  have : r = t := by
    rw [e]
    exact IsKthSmallest.unique (sorted_get_isKth dist hk1 hkn.le) ht
  subst this
  have hwi := hw i
  rw [kernelAt_of_ne ht0.ne'] at hwi
  have e' := (Res.ok.inj hwi)
  have := C02_support_fixed ⟨r, false, b.mKernel⟩ dist w rfl ht0 hd
    (by unfold BandwidthWeight.weight; simpa using kernelVec_eq_ok.2 hw) i
  exact this

/-- **C03.** Enlarging the bandwidth (both fixed and positive, or both adaptive) never decreases a weight. -/
theorem C03_weight_mono_bandwidth (k : KernelType) (adaptive : Bool) (b1 b2 : ℝ) {n : ℕ} (dist w1 w2 : Fin n → ℝ)
    (hfix : adaptive = false → 0 < b1) (hb : b1 ≤ b2) (hd : ∀ i, 0 ≤ dist i)
    (h1 : (⟨b1, adaptive, k⟩ : BandwidthWeight).weight dist = .ok w1)
    (h2 : (⟨b2, adaptive, k⟩ : BandwidthWeight).weight dist = .ok w2) (i : Fin n) : w1 i ≤ w2 i := by
  obtain ⟨r1, hf1, ha1, hw1⟩ := weight_ok h1
  obtain ⟨r2, hf2, ha2, hw2⟩ := weight_ok h2
  have hr : r1 ≤ r2 := by
    cases adaptive
    · rw [hf1 rfl, hf2 rfl]; exact hb
    · exact adaptiveRadius_mono hd hb (ha1 rfl) (ha2 rfl)
  have hr1 : 0 ≤ r1 := by
    cases adaptive
    · rw [hf1 rfl]; exact (hfix rfl).le
    · exact adaptiveRadius_nonneg hd (ha1 rfl)
  rcases hr1.lt_or_eq with h0 | h0
  · have e1 := hw1 i
    have e2 := hw2 i
    rw [kernelAt_of_ne h0.ne'] at e1
    rw [kernelAt_of_ne (h0.trans_le hr).ne'] at e2
    rw [← Res.ok.inj e1, ← Res.ok.inj e2]
    exact kval_mono (hd i) le_rfl h0 hr
  · have hz : ∃ (ha : adaptive = true), k = .Boxcar ∧ w1 i = 0 := by
      cases adaptive
      · have := hfix rfl; rw [← show r1 = b1 from hf1 rfl] at this; linarith
      · refine ⟨rfl, ?_⟩
        have har := ha1 rfl
        subst h0
        obtain ⟨i0, hi0⟩ := adaptiveRadius_zero hd har
        have hk : k = .Boxcar := by
          have := hw1 i0
          rw [hi0] at this
          cases k <;>
            simp [kernelAt, gaussianKernel, exponentialKernel, bisquareKernel, tricubeKernel] at this ⊢
        refine ⟨hk, ?_⟩
        have := hw1 i
        rw [hk] at this
        simp only [kernelAt, boxcarKernel, less, if_neg (not_lt.2 (hd i))] at this
        have := Res.ok.inj this
        simpa using this.symm
    obtain ⟨ha, hk, hz⟩ := hz
    rw [hz]
    have hfix2 : (⟨b2, adaptive, k⟩ : BandwidthWeight).mAdaptive = false → 0 < b2 := by
      intro h; rw [show (⟨b2, adaptive, k⟩ : BandwidthWeight).mAdaptive = adaptive from rfl, ha] at h; cases h
    exact ((C01_weights_proper _ _ _ hfix2 hd h2).1 i).1

/-- **C04, integer bandwidth.** An adaptive integer bandwidth `1 ≤ k < n` whose `k`-th smallest distance `t` is positive
gives exactly the weights of the fixed bandwidth `t`. -/
theorem C04_adaptive_integer (kernel : KernelType) {n : ℕ} (dist : Fin n → ℝ) (k : ℕ) (t : ℝ)
    (hk1 : 1 ≤ k) (hkn : k < n) (hk31 : k < 2147483648) (ht : IsKthSmallest dist k t) :
    (⟨k, true, kernel⟩ : BandwidthWeight).weight dist = (⟨t, false, kernel⟩ : BandwidthWeight).weight dist := by
  have l : (1 : ℝ) ≤ k := by exact_mod_cast hk1
  have hlt : (k : ℝ) < n := by exact_mod_cast hkn
  have u : (k : ℝ) < 2147483648 := by exact_mod_cast hk31
  obtain ⟨p, q, e⟩ := adaptiveRadius_interp dist l hlt u
  simp only [Nat.floor_natCast, sub_self, mul_zero, add_zero] at e
  have : (sortVec dist)[k - 1]'(by simpa using p) = t :=
    IsKthSmallest.unique (sorted_get_isKth dist hk1 hkn.le) ht
  unfold BandwidthWeight.weight
  simp [e, this]

example : IsKthSmallest (fun i : Fin 3 => (i : ℝ)) 2 1 := by
  refine ⟨⟨1, by norm_num⟩, ?_, ?_⟩
  · have : {i : Fin 3 | ((i : ℕ) : ℝ) < 1} = {0} := by
      ext i; fin_cases i <;> simp
    rw [this]; simp
  · have : {i : Fin 3 | ((i : ℕ) : ℝ) ≤ 1} = {0, 1} := by
      ext i; fin_cases i <;> simp
    rw [this, Set.ncard_pair (by decide)]

/-- **C04, fractional bandwidth.** For a real adaptive bandwidth `k + s`, `1 ≤ k < n`, `0 ≤ s < 1`, the radius is the point a
fraction `s` of the way from the `k`-th to the `(k+1)`-th smallest distance. -/
theorem C04_adaptive_fractional (kernel : KernelType) {n : ℕ} (dist : Fin n → ℝ) (k : ℕ) (s t t' : ℝ)
    (hk1 : 1 ≤ k) (hkn : k < n) (hk31 : k < 2147483648) (hs0 : 0 ≤ s) (hs1 : s < 1)
    (ht : IsKthSmallest dist k t) (ht' : IsKthSmallest dist (k + 1) t') :
    (⟨k + s, true, kernel⟩ : BandwidthWeight).weight dist =
      (⟨(1 - s) * t + s * t', false, kernel⟩ : BandwidthWeight).weight dist := by
  have l : (1 : ℝ) ≤ k + s := by
    have : (1 : ℝ) ≤ k := by exact_mod_cast hk1
    linarith
  have hlt : (k : ℝ) + s < n := by
    have : (k : ℝ) + 1 ≤ n := by exact_mod_cast hkn
    linarith
  have u : (k : ℝ) + s < 2147483648 := by
    have : (k : ℝ) + 1 ≤ 2147483648 := by exact_mod_cast hk31
    linarith
  have hfl : ⌊(k : ℝ) + s⌋₊ = k := by
    rw [Nat.floor_eq_iff (by linarith)]
    constructor <;> linarith
  obtain ⟨p, q, e⟩ := adaptiveRadius_interp dist l hlt u
  simp only [hfl] at e p q
  have e1 : (sortVec dist)[k - 1] = t :=
    IsKthSmallest.unique (sorted_get_isKth dist hk1 hkn.le) ht
  have e2 : (sortVec dist)[k] = t' :=
    IsKthSmallest.unique (sorted_get_isKth dist (k := k + 1) (by omega) (by omega)) ht'
  rw [e1, e2] at e
  have e3 : t + (t' - t) * ((k : ℝ) + s - k) = (1 - s) * t + s * t' := by ring
  rw [e3] at e
  unfold BandwidthWeight.weight
  simp [e]

/-- **C04, bandwidth not below `n`.** The radius is `bw / n` times the largest distance. -/
theorem C04_adaptive_large (kernel : KernelType) {n : ℕ} (dist : Fin n → ℝ) (bw m : ℝ) (hn : 0 < n)
    (hb : (n : ℝ) ≤ bw) (hm : IsLargest dist m) :
    (⟨bw, true, kernel⟩ : BandwidthWeight).weight dist =
      (⟨bw / n * m, false, kernel⟩ : BandwidthWeight).weight dist := by
  obtain ⟨m', hm', e⟩ := adaptiveRadius_scale dist hn hb
  have := IsLargest.unique hm hm'
  subst this
  unfold BandwidthWeight.weight
  simp [e]

/-- **C04, error branch.** An adaptive bandwidth below 1 never yields weights: neither does an empty distance vector. -/
theorem C04_adaptive_rejected (kernel : KernelType) {n : ℕ} (dist : Fin n → ℝ) (bw : ℝ)
    (h : n = 0 ∨ bw < 1) (w : Fin n → ℝ) : (⟨bw, true, kernel⟩ : BandwidthWeight).weight dist ≠ .ok w := by
  intro hw
  obtain ⟨r, -, hr, -⟩ := weight_ok hw
  have := adaptiveRadius_ok (hr rfl)
  rcases this with ⟨h1, h2, -⟩ | ⟨h1, h2⟩
  · rcases h with h | h
    · omega
    · have : bw < 1 := h
      have : 1 ≤ bw := h2
      linarith
  · rcases h with h | h
    · omega
    · have h3 : (1 : ℝ) ≤ n := by exact_mod_cast h1
      have : bw < 1 := h
      have : (n : ℝ) ≤ bw := h2
      linarith

/-- **C04, error branch, precisely.** For `0 ≤ bw < 1` the failure is an out-of-bounds exception (the code reads
element `int(floor(bw)) - 1 = -1` of the sorted distances); an empty distance vector is reported as an exception too. -/
theorem C04_adaptive_rejected_how (kernel : KernelType) {n : ℕ} (dist : Fin n → ℝ) (bw : ℝ) (h0 : 0 ≤ bw) :
    (n = 0 → (⟨bw, true, kernel⟩ : BandwidthWeight).weight dist = .throw .empty) ∧
    (n ≠ 0 → bw < 1 → (⟨bw, true, kernel⟩ : BandwidthWeight).weight dist = .throw .bounds) := by
  constructor
  · rintro rfl
    unfold BandwidthWeight.weight adaptiveRadius
    simp only [if_true]
    rw [if_neg (by simp [h0]), vecMax_zero]
    rfl
  · intro hn h1
    have hn0 : (0 : ℝ) < n := by exact_mod_cast Nat.pos_of_ne_zero hn
    have hn1 : (1 : ℝ) ≤ n := by exact_mod_cast Nat.pos_of_ne_zero hn
    unfold BandwidthWeight.weight adaptiveRadius
    simp only [if_true]
    have hf : ⌊bw⌋ = 0 := Int.floor_eq_zero_iff.2 ⟨h0, h1⟩
    rw [if_pos (Or.inl ⟨hn, (div_lt_one hn0).2 (by linarith)⟩), hf]
    simp [toInt32, predInt32, elemAt]

/-- **C04, neighbours.** With a compactly supported kernel and an adaptive integer bandwidth `k < n`, fewer than `k`
observations receive a positive weight (the `k`-th neighbour itself is excluded). -/
theorem C04_adaptive_neighbours (b : BandwidthWeight) {n : ℕ} (dist w : Fin n → ℝ) (k : ℕ)
    (ha : b.mAdaptive = true) (hk1 : 1 ≤ k) (hkn : k < n) (hb : b.mBandwidth = k)
    (hg : b.mKernel ≠ .Gaussian) (he : b.mKernel ≠ .Exponential) (hd : ∀ i, 0 ≤ dist i)
    (h : b.weight dist = .ok w) : {i | 0 < w i}.ncard < k := by
  have hk := sorted_get_isKth dist hk1 hkn.le
  generalize (sortVec dist)[k - 1]'(by rw [sortVec_length]; omega) = t at hk
  have hlt : b.mBandwidth < n := by rw [hb]; exact_mod_cast hkn
  have ht0 : 0 ≤ t := by obtain ⟨⟨i, hi⟩, _⟩ := hk; rw [← hi]; exact hd i
  have key : {i | 0 < w i} ⊆ {i | dist i < t} := by
    intro i hi
    simp only [Set.mem_ofPred_eq] at hi ⊢
    by_contra hc
    push Not at hc
    rcases ht0.lt_or_eq with h0 | h0
    · have := (C02_support_adaptive b dist w k t ha hk1 hkn hb hk h0 hd h i).2 ⟨hg, he, hc⟩
      linarith
    · subst h0
      obtain ⟨i0, hi0⟩ := hk.1
      rcases (C01_weights_proper b dist w (by simp [ha]) hd h).2.2 i0 hi0 with h1 | h1
      · obtain ⟨r, -, hr, hw⟩ := weight_ok h
        have har := hr ha
        obtain ⟨l, u⟩ := adaptiveRadius_ok_lt har hlt
        obtain ⟨p, q, e⟩ := adaptiveRadius_interp dist l hlt u
        rw [har] at e
        have e := Res.ok.inj e
        simp only [hb, Nat.floor_natCast, sub_self, mul_zero, add_zero] at e
        have : r = 0 := by
          rw [e]; exact IsKthSmallest.unique (sorted_get_isKth dist hk1 hkn.le) hk
        subst this
        have := hw i0
        rw [hi0, h1] at this
        cases hkk : b.mKernel <;> rw [hkk] at this <;>
          simp [kernelAt, gaussianKernel, exponentialKernel, bisquareKernel, tricubeKernel, boxcarKernel, less] at this
      · rw [h1.2.2 i] at hi; linarith
  calc {i | 0 < w i}.ncard ≤ {i | dist i < t}.ncard := Set.ncard_le_ncard key (Set.toFinite _)
    _ < k := hk.2.1

/-- **C05.** Weighting commutes with any reordering of the observations. (The number of weights equals the number of
distances by typing.) -/
theorem C05_weight_equivariant (b : BandwidthWeight) {n : ℕ} (dist w : Fin n → ℝ) (σ : Equiv.Perm (Fin n)) :
    b.weight dist = .ok w → b.weight (dist ∘ σ) = .ok (w ∘ σ) := by
  intro h
  have hperm : (List.ofFn (dist ∘ σ)).Perm (List.ofFn dist) := by
    exact Equiv.Perm.ofFn_comp_perm σ dist
  have hsort : sortVec (dist ∘ σ) = sortVec dist := by
    unfold sortVec
    apply List.Perm.eq_of_pairwise (le := (· ≤ ·))
    · intro a b _ _ h1 h2; exact le_antisymm h1 h2
    · exact List.pairwise_insertionSort _ _
    · exact List.pairwise_insertionSort _ _
    · exact ((List.perm_insertionSort _ _).trans hperm).trans (List.perm_insertionSort _ _).symm
  have hmax : vecMax (dist ∘ σ) = vecMax dist := by
    rcases Nat.eq_zero_or_pos n with hn | hn
    · subst hn; rw [vecMax_zero, vecMax_zero]
    · obtain ⟨m, e, hm⟩ := vecMax_spec dist hn
      obtain ⟨m', e', hm'⟩ := vecMax_spec (dist ∘ σ) hn
      rw [e, e']
      congr 1
      apply IsLargest.unique hm'
      obtain ⟨⟨i, hi⟩, hm⟩ := hm
      exact ⟨⟨σ.symm i, by simp [hi]⟩, fun j => hm _⟩
  have hrad : ∀ bw, adaptiveRadius bw (dist ∘ σ) = adaptiveRadius bw dist := by
    intro bw; unfold adaptiveRadius; rw [hsort, hmax]
  have hk : ∀ r, kernelVec b.mKernel dist r = .ok w → kernelVec b.mKernel (dist ∘ σ) r = .ok (w ∘ σ) := by
    intro r hr
    exact kernelVec_eq_ok.2 (fun i => kernelVec_eq_ok.1 hr (σ i))
  unfold BandwidthWeight.weight at h ⊢
  split
  · rename_i ha
    simp only [ha, if_true] at h
    obtain ⟨r, hr, hw⟩ := Res.bind_eq_ok.1 h
    rw [hrad, hr]
    exact hk r hw
  · rename_i ha
    simp only [ha] at h
    exact hk _ h

end Verif.Props

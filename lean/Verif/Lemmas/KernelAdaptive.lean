import Verif.Lemmas.Kernel
import Mathlib.Algebra.Order.Floor.Ring
import Mathlib.Algebra.Order.Archimedean.Real.Basic

namespace Verif.Model
open Verif

theorem adaptiveRadius_interp {n : ℕ} (dist : Fin n → ℝ) {bw : ℝ} (h1 : 1 ≤ bw) (hn : bw < n) (hb : bw < 2147483648) :
    ∃ (h0 : ⌊bw⌋₊ - 1 < (sortVec dist).length) (h0' : ⌊bw⌋₊ < (sortVec dist).length),
      adaptiveRadius bw dist =
        .ok ((sortVec dist)[⌊bw⌋₊ - 1] + ((sortVec dist)[⌊bw⌋₊] - (sortVec dist)[⌊bw⌋₊ - 1]) * (bw - ⌊bw⌋₊)) := by
  have hn0 : (0 : ℝ) < n := by linarith
  have hn0' : n ≠ 0 := by rintro rfl; simp at hn0
  have hpos : 0 ≤ bw := by linarith
  have hk1 : 1 ≤ ⌊bw⌋₊ := Nat.one_le_floor_iff bw |>.2 h1
  have hkn : ⌊bw⌋₊ < n := (Nat.floor_lt hpos).2 hn
  have hk31 : ⌊bw⌋₊ < 2147483648 := (Nat.floor_lt hpos).2 (by exact_mod_cast hb)
  have hfl : ⌊bw⌋ = (⌊bw⌋₊ : ℤ) := (Int.natCast_floor_eq_floor hpos).symm
  have hlen := sortVec_length dist
  refine ⟨by omega, by omega, ?_⟩
  have hdn : bw / n < 1 := (div_lt_one hn0).2 hn
  unfold adaptiveRadius
  simp only
  rw [if_pos (Or.inl ⟨hn0', hdn⟩), hfl]
  have e1 : toInt32 (⌊bw⌋₊ : ℤ) = .ok (⌊bw⌋₊ : ℤ) := by
    have hc : (-2147483648 : ℤ) ≤ (⌊bw⌋₊ : ℤ) ∧ (⌊bw⌋₊ : ℤ) < 2147483648 := ⟨by omega, by omega⟩
    simp only [toInt32, hc, and_self, if_true]
  have e2 : predInt32 (⌊bw⌋₊ : ℤ) = .ok ((⌊bw⌋₊ - 1 : ℕ) : ℤ) := by
    have hc : ¬ ((⌊bw⌋₊ : ℤ) - 1 < -2147483648) := by omega
    have hd : ((⌊bw⌋₊ : ℤ) - 1) = ((⌊bw⌋₊ - 1 : ℕ) : ℤ) := by omega
    rw [hd] at hc
    simp only [predInt32, hd, hc, if_false]
  rw [e1]
  simp only [Res.ok_bind]
  rw [e2]
  simp only [Res.ok_bind]
  rw [elemAt_ok (by omega), elemAt_ok (by omega)]
  simp

theorem adaptiveRadius_scale {n : ℕ} (dist : Fin n → ℝ) {bw : ℝ} (h0 : 0 < n) (hn : (n : ℝ) ≤ bw) :
    ∃ m, Spec.IsLargest dist m ∧ adaptiveRadius bw dist = .ok (bw / n * m) := by
  obtain ⟨m, hm, hL⟩ := vecMax_spec dist h0
  refine ⟨m, hL, ?_⟩
  have hn0 : (0 : ℝ) < n := by exact_mod_cast h0
  unfold adaptiveRadius
  simp only
  rw [if_neg, hm]
  · simp
  · rintro (⟨_, h⟩ | ⟨h, _⟩)
    · rw [div_lt_one hn0] at h; linarith
    · omega

theorem sortVec_nonneg {n : ℕ} {dist : Fin n → ℝ} (hd : ∀ i, 0 ≤ dist i) {i : ℕ} (h : i < (sortVec dist).length) :
    0 ≤ (sortVec dist)[i] := by
  obtain ⟨j, hj⟩ := (sortVec_mem dist).1 (List.getElem_mem h)
  rw [← hj]; exact hd j

/-- Whatever happens, an adaptive radius that is computed comes from one of the two branches. -/
theorem adaptiveRadius_ok {n : ℕ} {dist : Fin n → ℝ} {bw r : ℝ} (h : adaptiveRadius bw dist = .ok r) :
    0 < n ∧ 1 ≤ bw ∧ bw < max (n : ℝ) (2147483648) ∨ (0 < n ∧ (n : ℝ) ≤ bw) := by
  rcases Nat.eq_zero_or_pos n with hn | hn
  · subst hn
    unfold adaptiveRadius at h
    simp only at h
    split at h
    · unfold toInt32 at h
      split at h
      · unfold predInt32 at h
        simp only [Res.ok_bind] at h
        split at h
        · simp at h
        · simp only [Res.ok_bind] at h
          have : ∀ i, elemAt (sortVec dist) i = .throw .bounds := by
            intro i; unfold elemAt; rw [dif_neg]; rw [sortVec_length]; simp
          rw [this] at h; simp at h
      · simp at h
    · rw [vecMax_zero] at h; simp at h
  · have hn0 : (0 : ℝ) < n := by exact_mod_cast hn
    rcases lt_or_ge bw n with hlt | hge
    · left
      refine ⟨hn, ?_, lt_of_lt_of_le hlt (le_max_left _ _)⟩
      by_contra hc
      push Not at hc
      unfold adaptiveRadius at h
      simp only at h
      rw [if_pos (Or.inl ⟨by omega, (div_lt_one hn0).2 hlt⟩)] at h
      have hf : ⌊bw⌋ ≤ 0 := by
        have : ⌊bw⌋ < 1 := Int.floor_lt.2 (by simpa using hc)
        omega
      unfold toInt32 at h
      split at h
      · unfold predInt32 at h
        simp only [Res.ok_bind] at h
        split at h
        · simp at h
        · simp only [Res.ok_bind] at h
          have : elemAt (sortVec dist) (⌊bw⌋ - 1) = .throw .bounds := by
            unfold elemAt; rw [dif_neg]; omega
          rw [this] at h; simp at h
      · simp at h
    · right; exact ⟨hn, hge⟩

/-- The computed adaptive radius in the `bw < n` case. -/
theorem adaptiveRadius_ok_lt {n : ℕ} {dist : Fin n → ℝ} {bw r : ℝ} (h : adaptiveRadius bw dist = .ok r)
    (hlt : bw < n) : 1 ≤ bw ∧ bw < 2147483648 := by
  have h1 : 1 ≤ bw := by
    rcases adaptiveRadius_ok h with h | h
    · exact h.2.1
    · linarith [h.2]
  refine ⟨h1, ?_⟩
  by_contra hc
  push Not at hc
  have hn0 : (0 : ℝ) < n := by linarith
  have hn0' : n ≠ 0 := by rintro rfl; simp at hn0
  unfold adaptiveRadius at h
  simp only at h
  rw [if_pos (Or.inl ⟨hn0', (div_lt_one hn0).2 hlt⟩)] at h
  have hf : 2147483648 ≤ ⌊bw⌋ := by
    exact Int.le_floor.2 (by exact_mod_cast hc)
  unfold toInt32 at h
  rw [if_neg (by omega)] at h
  simp at h

theorem interp_mono {a b c d s t : ℝ} (hab : a ≤ b) (hbc : b ≤ c) (hcd : c ≤ d) (hs1 : s ≤ 1) (ht0 : 0 ≤ t) :
    a + (b - a) * s ≤ c + (d - c) * t := by
  have h1 : (b - a) * s ≤ (b - a) * 1 := mul_le_mul_of_nonneg_left hs1 (by linarith)
  have h2 : 0 ≤ (d - c) * t := mul_nonneg (by linarith) ht0
  linarith

/-- The adaptive radius is monotone in the bandwidth. -/
theorem adaptiveRadius_mono {n : ℕ} {dist : Fin n → ℝ} (hd : ∀ i, 0 ≤ dist i) {b1 b2 r1 r2 : ℝ} (hb : b1 ≤ b2)
    (h1 : adaptiveRadius b1 dist = .ok r1) (h2 : adaptiveRadius b2 dist = .ok r2) : r1 ≤ r2 := by
  have hlen := sortVec_length dist
  have hn : 0 < n := by rcases adaptiveRadius_ok h1 with h | h <;> exact h.1
  have hn0 : (0 : ℝ) < n := by exact_mod_cast hn
  rcases lt_or_ge b1 n with c1 | c1
  · obtain ⟨l1, u1⟩ := adaptiveRadius_ok_lt h1 c1
    obtain ⟨p1, q1, e1⟩ := adaptiveRadius_interp dist l1 c1 u1
    rw [h1] at e1
    have e1 := Res.ok.inj e1
    have f1 : (⌊b1⌋₊ : ℝ) ≤ b1 := Nat.floor_le (by linarith)
    have g1 : b1 < ⌊b1⌋₊ + 1 := Nat.lt_floor_add_one b1
    have k1 : 1 ≤ ⌊b1⌋₊ := Nat.one_le_floor_iff b1 |>.2 l1
    have m1 : (sortVec dist)[⌊b1⌋₊ - 1] ≤ (sortVec dist)[⌊b1⌋₊] := sortVec_mono dist (by omega) q1
    rcases lt_or_ge b2 n with c2 | c2
    · obtain ⟨l2, u2⟩ := adaptiveRadius_ok_lt h2 c2
      obtain ⟨p2, q2, e2⟩ := adaptiveRadius_interp dist l2 c2 u2
      rw [h2] at e2
      have e2 := Res.ok.inj e2
      have f2 : (⌊b2⌋₊ : ℝ) ≤ b2 := Nat.floor_le (by linarith)
      rw [e1, e2]
      rcases Nat.lt_or_ge ⌊b1⌋₊ ⌊b2⌋₊ with hlt | hge
      · apply interp_mono m1 (sortVec_mono dist (by omega) p2) (sortVec_mono dist (by omega) q2)
        · linarith
        · linarith
      · have : ⌊b1⌋₊ = ⌊b2⌋₊ := le_antisymm (Nat.floor_mono hb) hge
        simp only [this] at m1 ⊢
        have := mul_le_mul_of_nonneg_left (show b1 - ⌊b2⌋₊ ≤ b2 - (⌊b2⌋₊ : ℝ) by linarith)
          (sub_nonneg.2 m1)
        linarith
    · obtain ⟨m, hm, e2⟩ := adaptiveRadius_scale dist hn c2
      rw [h2] at e2
      have e2 := Res.ok.inj e2
      have hq : (sortVec dist)[⌊b1⌋₊] ≤ m := by
        obtain ⟨j, hj⟩ := (sortVec_mem dist).1 (List.getElem_mem q1)
        rw [← hj]; exact hm.2 j
      have hm0 : 0 ≤ m := by obtain ⟨⟨i, hi⟩, _⟩ := hm; rw [← hi]; exact hd i
      rw [e1, e2]
      have : 1 * m ≤ b2 / n * m := mul_le_mul_of_nonneg_right ((one_le_div hn0).2 c2) hm0
      have := interp_mono (s := b1 - ⌊b1⌋₊) (t := 0) m1 hq (le_refl m) (by linarith) le_rfl
      linarith
  · obtain ⟨m, hm, e1⟩ := adaptiveRadius_scale dist hn c1
    obtain ⟨m', hm', e2⟩ := adaptiveRadius_scale dist hn (c1.trans hb)
    rw [h1] at e1; rw [h2] at e2
    have e1 := Res.ok.inj e1
    have e2 := Res.ok.inj e2
    have := IsLargest.unique hm hm'
    subst this
    have hm0 : 0 ≤ m := by obtain ⟨⟨i, hi⟩, _⟩ := hm; rw [← hi]; exact hd i
    rw [e1, e2]
    apply mul_le_mul_of_nonneg_right _ hm0
    exact div_le_div_of_nonneg_right hb hn0.le

theorem adaptiveRadius_nonneg {n : ℕ} {dist : Fin n → ℝ} (hd : ∀ i, 0 ≤ dist i) {b r : ℝ}
    (h : adaptiveRadius b dist = .ok r) : 0 ≤ r := by
  have hlen := sortVec_length dist
  have hn : 0 < n := by rcases adaptiveRadius_ok h with h | h <;> exact h.1
  have hn0 : (0 : ℝ) < n := by exact_mod_cast hn
  rcases lt_or_ge b n with c | c
  · obtain ⟨l, u⟩ := adaptiveRadius_ok_lt h c
    obtain ⟨p, q, e⟩ := adaptiveRadius_interp dist l c u
    rw [h] at e
    have e := Res.ok.inj e
    have f : (⌊b⌋₊ : ℝ) ≤ b := Nat.floor_le (by linarith)
    have m : (sortVec dist)[⌊b⌋₊ - 1] ≤ (sortVec dist)[⌊b⌋₊] := sortVec_mono dist (by omega) q
    have z := sortVec_nonneg hd p
    rw [e]
    have := mul_nonneg (sub_nonneg.2 m) (sub_nonneg.2 f)
    linarith
  · obtain ⟨m, hm, e⟩ := adaptiveRadius_scale dist hn c
    rw [h] at e
    have e := Res.ok.inj e
    have hm0 : 0 ≤ m := by obtain ⟨⟨i, hi⟩, _⟩ := hm; rw [← hi]; exact hd i
    rw [e]
    have : 0 ≤ b := by linarith
    positivity

/-- An adaptive radius that comes out as zero means that some observation is at distance zero. -/
theorem adaptiveRadius_zero {n : ℕ} {dist : Fin n → ℝ} (hd : ∀ i, 0 ≤ dist i) {b : ℝ}
    (h : adaptiveRadius b dist = .ok 0) : ∃ i, dist i = 0 := by
  have hlen := sortVec_length dist
  have hn : 0 < n := by rcases adaptiveRadius_ok h with h | h <;> exact h.1
  have hn0 : (0 : ℝ) < n := by exact_mod_cast hn
  rcases lt_or_ge b n with c | c
  · obtain ⟨l, u⟩ := adaptiveRadius_ok_lt h c
    obtain ⟨p, q, e⟩ := adaptiveRadius_interp dist l c u
    rw [h] at e
    have e := Res.ok.inj e
    have f : (⌊b⌋₊ : ℝ) ≤ b := Nat.floor_le (by linarith)
    have m : (sortVec dist)[⌊b⌋₊ - 1] ≤ (sortVec dist)[⌊b⌋₊] := sortVec_mono dist (by omega) q
    have z := sortVec_nonneg hd p
    have := mul_nonneg (sub_nonneg.2 m) (sub_nonneg.2 f)
    have e0 : (sortVec dist)[⌊b⌋₊ - 1] = 0 := by linarith
    obtain ⟨j, hj⟩ := (sortVec_mem dist).1 (List.getElem_mem p)
    exact ⟨j, by rw [hj, e0]⟩
  · obtain ⟨m, hm, e⟩ := adaptiveRadius_scale dist hn c
    rw [h] at e
    have e := Res.ok.inj e
    have hb0 : 0 < b := by linarith
    have : 0 < b / n := by positivity
    obtain ⟨⟨i, hi⟩, _⟩ := hm
    refine ⟨i, ?_⟩
    rw [hi]
    rcases mul_eq_zero.1 e.symm with h | h
    · linarith
    · exact h

/-- What `weight` returned, in terms of the radius. -/
theorem weight_ok {b : BandwidthWeight} {n : ℕ} {dist w : Fin n → ℝ} (h : b.weight dist = .ok w) :
    ∃ r, (b.mAdaptive = false → r = b.mBandwidth) ∧ (b.mAdaptive = true → adaptiveRadius b.mBandwidth dist = .ok r) ∧
      ∀ i, kernelAt b.mKernel (dist i) r = .ok (w i) := by
  unfold BandwidthWeight.weight at h
  split at h
  · rename_i ha
    obtain ⟨r, hr, hw⟩ := Res.bind_eq_ok.1 h
    exact ⟨r, by simp [ha], fun _ => hr, kernelVec_eq_ok.1 hw⟩
  · rename_i ha
    exact ⟨b.mBandwidth, fun _ => rfl, fun h => absurd h ha, kernelVec_eq_ok.1 h⟩

end Verif.Model

import Verif.Props.BandwidthSelector
import Verif.Props.ForwardSelector

/-! # Concrete cases for the theorems of `Props/BandwidthSelector` and `Props/ForwardSelector` -/

namespace Verif.Cases
open Verif Verif.Model Verif.Spec Verif.Props Classical

/-- The criterion `(x - 3)²`. -/
noncomputable def parabola : Oracle := fun _ b => (true, (b.mBandwidth - 3) ^ 2)

theorem parabola_det : Det (fun x => (x - 3) ^ 2) parabola := fun _ _ => rfl

/-- All its evaluations succeed. -/
theorem parabola_evals (bw : BandwidthWeight) (l u : ℝ) : ∀ e ∈ (optimize bw l u parabola []).evals, e.success = true ∧ e.f = (e.x - 3) ^ 2 := by
  intro e he
  have hd0 := GSDet.init parabola_det bw l u []
  have key := (goldenLoop_induct (bw := bw) (P := GSDet (fun x => (x - 3) ^ 2)) (fun s h _ => h.step parabola_det)
    (s := goldenStart bw l u parabola []) ⟨hd0.a1, hd0.a2, hd0.b1, hd0.b2, hd0.ev⟩).1
  rcases optimize_cases bw l u parabola [] with ⟨-, h⟩ | ⟨-, -, -, -, h⟩ | ⟨-, -, -, -, -, h⟩ | ⟨-, -, -, -, h⟩ <;> rw [h] at he
  · exact (hd0.ev e he).symm
  · exact (hd0.ev e he).symm
  · exact (key.ev e he).symm
  · exact (key.ev e he).symm

/-- The search between 0 and 10 returns a bandwidth. -/
theorem parabola_out : ∃ b, (optimize ⟨1, false, .Bisquare⟩ 0 10 parabola []).out = .ok b := by
  rcases optimize_cases ⟨1, false, .Bisquare⟩ 0 10 parabola [] with ⟨-, h⟩ | ⟨-, -, h1, h2, h⟩ | ⟨-, -, -, -, -, h⟩ | ⟨-, -, -, -, h⟩
  · rw [h]; exact ⟨_, rfl⟩
  · have hm : (⟨(goldenInit ⟨1, false, .Bisquare⟩ 0 10 parabola []).x1, true, dblMax⟩ : Eval) ∈
        (optimize ⟨1, false, .Bisquare⟩ 0 10 parabola []).evals := by
      rw [h]
      simp only [goldenInit, parabola, List.mem_cons] at h1 ⊢
      exact Or.inl (by rw [← h1])
    have hb := (C15_fixed_within_bounds ⟨1, false, .Bisquare⟩ rfl 0 10 (by norm_num) parabola []).1 _ hm
    have he := (parabola_evals _ _ _ _ hm).2
    have := hundred_lt_dblMax
    simp only at hb he
    nlinarith [hb.1, hb.2]
  · rw [h]; exact ⟨_, rfl⟩
  · rw [h]; exact ⟨_, rfl⟩

/-- `C14_returns_best_evaluated`, `C14_unimodal_converges`, `C16_interval_shrinks`, `C17_kernel_kind_kept`, `C18_criterion_list`: the search for the minimum of `(x - 3)²`. -/
example : ∃ b, (optimize ⟨1, false, .Bisquare⟩ 0 10 parabola []).out = .ok b ∧
    (∃ e ∈ (optimize ⟨1, false, .Bisquare⟩ 0 10 parabola []).evals, e.x = b.mBandwidth ∧
      ∀ e' ∈ (optimize ⟨1, false, .Bisquare⟩ 0 10 parabola []).evals, e.f ≤ e'.f) ∧
    (∃ k, |b.mBandwidth - 3| ≤ goldenR ^ k * (10 - 0)) ∧
    (∃ h : 0 + 1 < (optimize ⟨1, false, .Bisquare⟩ 0 10 parabola []).evals.length,
      |(optimize ⟨1, false, .Bisquare⟩ 0 10 parabola []).evals[0 + 1].x - b.mBandwidth| ≤ ((√5 - 1) / 2) ^ 0 * (10 - 0)) ∧
    (b.mKernel = .Bisquare ∧ b.mAdaptive = false) ∧
    (bandwidthCriterion (optimize ⟨1, false, .Bisquare⟩ 0 10 parabola []).crit).Pairwise (fun p q => p.1 < q.1) := by
  obtain ⟨b, hb⟩ := parabola_out
  have hs : ∀ e ∈ (optimize ⟨1, false, .Bisquare⟩ 0 10 parabola []).evals, e.success = true := fun e he => (parabola_evals _ _ _ e he).1
  have hl : 0 + 1 < (optimize ⟨1, false, .Bisquare⟩ 0 10 parabola []).evals.length :=
    (C16_call_bound ⟨1, false, .Bisquare⟩ 0 10 parabola []).1
  obtain ⟨k, -, hk, -⟩ := C14_unimodal_converges ⟨1, false, .Bisquare⟩ rfl 0 10 3 (by norm_num) (by norm_num) (fun x => (x - 3) ^ 2)
    (by intro x hx y hy hxy; simp only [Set.mem_Icc] at hx hy; nlinarith) (by intro x hx y hy hxy; simp only [Set.mem_Icc] at hx hy; nlinarith)
    parabola parabola_det [] b hb
  exact ⟨b, hb, C14_returns_best_evaluated _ _ _ _ _ b hb hs, ⟨k, hk⟩, ⟨hl, C16_interval_shrinks _ rfl 0 10 (by norm_num) _ _ b hb hs 0 hl⟩,
    C17_kernel_kind_kept _ _ _ _ _ b hb, (C18_criterion_list _ 0 10 parabola hs _ (List.Perm.refl _) b hb).1⟩

/-- `C15_fixed_within_bounds` and `C15_adaptive_near_bounds_partial`: bounds 0 and 10, fixed and adaptive. -/
example : (∀ e ∈ (optimize ⟨1, false, .Bisquare⟩ 0 10 parabola []).evals, 0 ≤ e.x ∧ e.x ≤ 10) ∧
    ∀ e ∈ (optimize ⟨1, true, .Bisquare⟩ 0 10 parabola []).evals, ∃ z : ℤ, e.x = z :=
  ⟨(C15_fixed_within_bounds _ rfl 0 10 (by norm_num) parabola []).1,
    fun e he => (C15_adaptive_near_bounds_partial _ rfl 0 10 (by norm_num) parabola [] e he).1⟩

/-- `C16_stops_after_failure`: the second evaluation fails. -/
example : ∃ h : 1 < (optimize ⟨1, false, .Bisquare⟩ 0 10 (fun j _ => (j != 1, 0)) []).evals.length,
    (optimize ⟨1, false, .Bisquare⟩ 0 10 (fun j _ => (j != 1, 0)) []).evals[1].success = false ∧
    (1 + 1 = (optimize ⟨1, false, .Bisquare⟩ 0 10 (fun j _ => (j != 1, 0)) []).evals.length ∨
      (optimize ⟨1, false, .Bisquare⟩ 0 10 (fun j _ => (j != 1, 0)) []).evals.length = 2) := by
  have h1 : 1 < (optimize ⟨1, false, .Bisquare⟩ 0 10 (fun j _ => (j != 1, 0)) []).evals.length :=
    (C16_call_bound ⟨1, false, .Bisquare⟩ 0 10 (fun j _ => (j != 1, 0)) []).1
  have h2 : (optimize ⟨1, false, .Bisquare⟩ 0 10 (fun j _ => (j != 1, 0)) []).evals[1].success = false := by
    rcases optimize_cases ⟨1, false, .Bisquare⟩ 0 10 (fun j _ => (j != 1, 0)) [] with ⟨-, h⟩ | ⟨-, h, -⟩ | ⟨-, h, -⟩ | ⟨-, h, -⟩
    · simp only [h]; rfl
    all_goals simp [goldenInit] at h
  exact ⟨h1, h2, C16_stops_after_failure _ _ _ _ _ 1 h1 h2⟩

/-- `C19_greedy_search`, `C19_reported_list`, `C20_selected_was_visited`: three candidates. -/
example : ∃ srt r, IsStdSort srt ∧ forwardOptimize srt [0, 1, 2] 3 gapOracle = .ok r ∧ r.evals.length = 3 * (3 + 1) / 2 ∧
    (∃ path, GreedySearch 3 path r.evals) ∧ (∃ sorted, r.sorted = some sorted ∧ sorted.Perm r.evals) ∧ ∃ m ∈ r.evals, [0, 1] = names [0, 1, 2] m.1 := by
  obtain ⟨srt, hs⟩ := exists_stdSort
  obtain ⟨r, hr, ho, -⟩ := C20_selects_stage_loser srt hs
  obtain ⟨h1, -, h2, -⟩ := C19_greedy_search srt _ _ _ r hr fun _ _ => rfl
  obtain ⟨sorted, h3, h4, -⟩ := C19_reported_list srt hs _ _ _ r hr fun _ _ => rfl
  exact ⟨srt, r, hs, hr, h2, h1, ⟨sorted, h3, h4⟩, C20_selected_was_visited srt hs _ _ _ r hr _ ho fun _ _ => rfl⟩

/-- `C20_single_candidate_undefined`: one candidate. -/
example : ∃ srt r, IsStdSort srt ∧ forwardOptimize srt [4] 3 gapOracle = .ok r ∧ r.out = .ub := by
  obtain ⟨srt, hs⟩ := exists_stdSort
  obtain ⟨r, hr⟩ := C20_single_candidate_undefined srt hs 4 3 gapOracle fun _ _ => rfl
  exact ⟨srt, r, hs, hr⟩

end Verif.Cases

import Verif.Model.MultiscaleRefit
import Verif.Props.MultiscaleModes

/-! # C136: fitting a multiscale model again -/

namespace Verif.Props
open Verif Verif.Model Verif.Spec Matrix Classical

variable {n k : ℕ}

/-- Centred predictors stay as they are when they are centred again. -/
theorem centre_again (a : Bool) (c : Fin k → Bool) (x : Matrix (Fin n) (Fin k) ℝ) :
    centrePredictors a c (centrePredictors a c x) = centrePredictors a c x := by
  ext j i
  have hn : (n : ℝ) ≠ 0 := by exact_mod_cast (Fin.pos j).ne'
  by_cases h : (a = true → 1 ≤ i.val) ∧ c i = true
  · simp only [centrePredictors, of_apply, if_pos h, Finset.sum_sub_distrib, Finset.sum_const, Finset.card_univ, Fintype.card_fin, nsmul_eq_mul]
    field_simp
    ring
  · simp only [centrePredictors, of_apply, if_neg h]

theorem bfVarsIn_x (u : MgwrSetup n k) (z : Matrix (Fin n) (Fin k) ℝ) (hat : Bool) (md : MgwrModes n k) (x : Matrix (Fin n) (Fin k) ℝ)
    (d' : Fin k → CRSDistance) (range : Fin k → ℝ × ℝ) (it : ℕ) : ∀ (is : List (Fin k)) (s : BfState n k),
      bfVarsIn { u with x := z } hat md x d' range it is s = bfVarsIn u hat md x d' range it is s := by
  intro is
  induction is with
  | nil => intro s; rfl
  | cons i is ih =>
    intro s
    rw [bfVarsIn, bfVarsIn, show (fun s' => bfVarsIn { u with x := z } hat md x d' range it is s') = fun s' => bfVarsIn u hat md x d' range it is s' from
      funext ih]
    rfl

theorem bfLoopIn_x (u : MgwrSetup n k) (z : Matrix (Fin n) (Fin k) ℝ) (hat : Bool) (md : MgwrModes n k) (x : Matrix (Fin n) (Fin k) ℝ)
    (d' : Fin k → CRSDistance) (range : Fin k → ℝ × ℝ) : ∀ (m it : ℕ) (go : Bool) (r0 : ℝ) (s : BfState n k),
      bfLoopIn { u with x := z } hat md x d' range m it go r0 s = bfLoopIn u hat md x d' range m it go r0 s := by
  intro m
  induction m with
  | zero => intro it go r0 s; rfl
  | succ m ih =>
    intro it go r0 s
    rw [bfLoopIn, bfLoopIn, bfVarsIn_x]
    simp only [ih]

/-- A fit reads the predictors only after it has centred them. -/
theorem runIn_x (u : MgwrSetup n k) (z : Matrix (Fin n) (Fin k) ℝ)
    (hz : centrePredictors u.hasIntercept u.centred z = centrePredictors u.hasIntercept u.centred u.x) (hat : Bool) (md : MgwrModes n k) :
    mgwrRunIn { u with x := z } hat md = mgwrRunIn u hat md := by
  unfold mgwrRunIn backfittingIn
  simp only [hz, bfLoopIn_x]
  rfl

/-- **C136 (what a further fit does).** After a completed fit, a further fit does exactly what the first fit of a new object with the original data and
settings would do, except that it takes the bandwidths found as start values and treats the predictors whose bandwidth had settled as if the user had
given it. -/
theorem C136_second_fit (u : MgwrSetup n k) (hat : Bool) (md md' : MgwrModes n k) (o : MgwrReport n k) (_h : mgwrRunIn u hat md = .ok o) :
    mgwrRunIn (u.after o.out) hat md' = mgwrRunIn { u with bw := o.out.bw, init := o.out.init } hat md' := by
  exact runIn_x { u with bw := o.out.bw, init := o.out.init } _ (centre_again _ _ _) hat md'

/-- The bandwidths of the variables that are given are not touched by back-fitting. -/
theorem bfVarsIn_given {u : MgwrSetup n k} {hat : Bool} {md : MgwrModes n k} {x : Matrix (Fin n) (Fin k) ℝ} {d' : Fin k → CRSDistance}
    {range : Fin k → ℝ × ℝ} {it : ℕ} {v : Fin k} : ∀ (is : List (Fin k)) (s s' : BfState n k), bfVarsIn u hat md x d' range it is s = .ok s' →
      s.init v = .Specified → s'.init v = .Specified ∧ s'.bw v = s.bw v := by
  intro is
  induction is with
  | nil => intro s s' h hv; cases Res.ok.inj h; exact ⟨hv, rfl⟩
  | cons i is ih =>
    intro s s' h hv
    rw [bfVarsIn] at h
    obtain ⟨s1, h1, h⟩ := Res.bind_eq_ok'.1 h
    suffices s1.init v = .Specified ∧ s1.bw v = s.bw v by
      obtain ⟨a, b⟩ := ih _ _ h this.1
      exact ⟨a, b.trans this.2⟩
    unfold bfVarIn at h1
    dsimp only at h1
    obtain ⟨s2, h2, h1⟩ := Res.bind_eq_ok'.1 h1
    obtain ⟨r, -, h1⟩ := Res.bind_eq_ok'.1 h1
    cases Res.ok.inj h1
    change s2.init v = .Specified ∧ s2.bw v = s.bw v
    by_cases hi : s.init i = .Specified
    · rw [if_pos hi] at h2
      cases Res.ok.inj h2
      exact ⟨hv, rfl⟩
    · rw [if_neg hi] at h2
      obtain ⟨b, -, h2⟩ := Res.bind_eq_ok'.1 h2
      cases Res.ok.inj h2
      have hne : v ≠ i := fun e => hi (e ▸ hv)
      unfold bfSelect
      dsimp only
      split
      · exact ⟨hv, by simp [Function.update_of_ne hne]⟩
      · split
        · exact ⟨by simp [Function.update_of_ne hne, hv], by simp [Function.update_of_ne hne]⟩
        · exact ⟨hv, by simp [Function.update_of_ne hne]⟩

theorem bfLoopIn_given {u : MgwrSetup n k} {hat : Bool} {md : MgwrModes n k} {x : Matrix (Fin n) (Fin k) ℝ} {d' : Fin k → CRSDistance}
    {range : Fin k → ℝ × ℝ} {v : Fin k} : ∀ (m it : ℕ) (go : Bool) (r0 : ℝ) (s : BfState n k) (q : BfState n k × ℝ),
      bfLoopIn u hat md x d' range m it go r0 s = .ok q → s.init v = .Specified → q.1.init v = .Specified ∧ q.1.bw v = s.bw v := by
  intro m
  induction m with
  | zero => intro it go r0 s q h hv; rw [bfLoopIn] at h; cases Res.ok.inj h; exact ⟨hv, rfl⟩
  | succ m ih =>
    intro it go r0 s q h hv
    rw [bfLoopIn] at h
    split at h
    · cases Res.ok.inj h; exact ⟨hv, rfl⟩
    · obtain ⟨s1, h1, h⟩ := Res.bind_eq_ok'.1 h
      obtain ⟨a, b⟩ := bfVarsIn_given _ _ _ h1 hv
      obtain ⟨c, d⟩ := ih _ _ _ _ _ h a
      exact ⟨c, d.trans b⟩

/-- **C136 (given and settled bandwidths).** A fit never changes a bandwidth that the user gave or that settled in an earlier fit, and the predictor stays
marked as given. -/
theorem C136_given_kept (u : MgwrSetup n k) (hat : Bool) (md : MgwrModes n k) (o : MgwrReport n k) (h : mgwrRunIn u hat md = .ok o) (i : Fin k)
    (hi : u.init i = .Specified) : o.out.init i = .Specified ∧ o.out.bw i = u.bw i := by
  unfold mgwrRunIn at h
  dsimp only at h
  obtain ⟨c, -, h⟩ := Res.bind_eq_ok'.1 h
  obtain ⟨rg, -, h⟩ := Res.bind_eq_ok'.1 h
  obtain ⟨d', -, h⟩ := Res.bind_eq_ok'.1 h
  obtain ⟨range, -, h⟩ := Res.bind_eq_ok'.1 h
  obtain ⟨bw, hb, h⟩ := Res.bind_eq_ok'.1 h
  obtain ⟨r, hr, h⟩ := Res.bind_eq_ok'.1 h
  cases Res.ok.inj h
  have hbi := Res.tabulate_eq_ok.1 hb i
  rw [if_neg (by rw [hi]; decide)] at hbi
  obtain ⟨a, b⟩ := bfLoopIn_given (v := i) _ _ _ _ _ _ hr hi
  exact ⟨a, b.trans (Res.ok.inj hbi).symm⟩

/-- **C136 (settled once, settled for ever).** In every later fit of the same object, too. -/
theorem C136_settled_kept (hat : Bool) : ∀ (mds : List (MgwrModes n k)) (u : MgwrSetup n k) (os : List (MgwrReport n k)),
    mgwrFits hat u mds = .ok os → ∀ (i : Fin k), u.init i = .Specified → ∀ o ∈ os, o.out.init i = .Specified ∧ o.out.bw i = u.bw i := by
  intro mds
  induction mds with
  | nil => intro u os h i _ o ho; rw [mgwrFits] at h; cases Res.ok.inj h; cases ho
  | cons md rest ih =>
    intro u os h i hi o ho
    rw [mgwrFits] at h
    obtain ⟨o1, h1, h⟩ := Res.bind_eq_ok'.1 h
    obtain ⟨os', h2, h⟩ := Res.bind_eq_ok'.1 h
    cases Res.ok.inj h
    have hk := C136_given_kept u hat md o1 h1 i hi
    rcases List.mem_cons.1 ho with rfl | ho
    · exact hk
    · obtain ⟨a, b⟩ := ih _ _ h2 i hk.1 o ho
      exact ⟨a, b.trans hk.2⟩

/-- **C136 (all bandwidths given).** If the user gave all bandwidths (or all have settled), then every further fit gives the same report: if the first of
several fits that work alike succeeds, then all do, with the same coefficients, standard errors, bandwidths and diagnostics. -/
theorem C136_refit_partial (u : MgwrSetup n k) (hat : Bool) (md : MgwrModes n k) (hu : ∀ i, u.init i = .Specified) (o : MgwrReport n k)
    (h : mgwrRunIn u hat md = .ok o) (m : ℕ) : mgwrFits hat u (List.replicate m md) = .ok (List.replicate m o) := by
  have hx : ∀ v : MgwrSetup n k, v = { u with x := v.x } → centrePredictors u.hasIntercept u.centred v.x = centrePredictors u.hasIntercept u.centred u.x →
      mgwrRunIn v hat md = .ok o := by
    intro v hv hx
    rw [← h, hv]
    exact runIn_x u _ hx hat md
  suffices key : ∀ (m : ℕ) (v : MgwrSetup n k), v = { u with x := v.x } →
      centrePredictors u.hasIntercept u.centred v.x = centrePredictors u.hasIntercept u.centred u.x →
      mgwrFits hat v (List.replicate m md) = .ok (List.replicate m o) from key m u rfl rfl
  intro m
  induction m with
  | zero => intro v _ _; rfl
  | succ m ih =>
    intro v hv hvx
    have hr := hx v hv hvx
    rw [List.replicate_succ, mgwrFits, hr]
    simp only [Res.bind]
    have hk := fun i => C136_given_kept v hat md o hr i (by rw [hv]; exact hu i)
    have ha : v.after o.out = { u with x := centrePredictors u.hasIntercept u.centred v.x } := by
      have e1 : o.out.init = u.init := funext fun i => by rw [(hk i).1, hu i]
      have e2 : o.out.bw = u.bw := funext fun i => by rw [(hk i).2, hv]
      have e3 : v.hasIntercept = u.hasIntercept := by rw [hv]
      have e4 : v.centred = u.centred := by rw [hv]
      unfold MgwrSetup.after
      rw [e1, e2, e3, e4]
      rw [hv]
    rw [ih (v.after o.out) (by rw [ha]) (by rw [ha]; simp only [hvx, centre_again])]
    rfl

end Verif.Props

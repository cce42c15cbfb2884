import Verif.Model.ForwardSelector
import Verif.Spec.ForwardSelector
import Mathlib.Tactic.Linarith
import Mathlib.Tactic.Ring

namespace Verif.Model
open Verif Classical

theorem indexMin_spec : ∀ (l : List ℝ), l ≠ [] → ∃ h : indexMin l < l.length, ∀ x ∈ l, l[indexMin l] ≤ x
  | [], h => absurd rfl h
  | [a], _ => ⟨by simp [indexMin], by simp [indexMin]⟩
  | a :: b :: t, _ => by
    obtain ⟨h1, h2⟩ := indexMin_spec (b :: t) (by simp)
    simp only [indexMin]
    have hg : (b :: t).getD (indexMin (b :: t)) 0 = (b :: t)[indexMin (b :: t)] := by
      rw [List.getD_eq_getElem?_getD, List.getElem?_eq_getElem h1]; rfl
    split
    · rename_i hlt
      rw [hg] at hlt
      refine ⟨by simpa using h1, ?_⟩
      intro x hx
      rw [List.getElem_cons_succ]
      rcases List.mem_cons.1 hx with rfl | hx
      · exact hlt.le
      · exact h2 x hx
    · rename_i hlt
      rw [hg, not_lt] at hlt
      refine ⟨by simp, ?_⟩
      intro x hx
      rw [List.getElem_cons_zero]
      rcases List.mem_cons.1 hx with rfl | hx
      · exact le_rfl
      · exact hlt.trans (h2 x hx)

theorem stageLoop_length (o : VOracle) (vars cur : List ℕ) : ∀ (rs : List ℕ) (cs : List ℝ) (ms : List FModel),
    (stageLoop o vars cur rs cs ms).1.length ≤ cs.length + rs.length
  | [], cs, ms => by simp [stageLoop]
  | r :: rs, cs, ms => by
    simp only [stageLoop]
    split
    · have := stageLoop_length o vars cur rs (cs ++ [(o ms.length (convertIndex vars (cur ++ [r]))).2])
        (ms ++ [(cur ++ [r], (o ms.length (convertIndex vars (cur ++ [r]))).2)])
      simp only [List.length_append, List.length_cons, List.length_nil] at this ⊢
      omega
    · simp only [List.length_append, List.length_cons, List.length_nil]
      omega

/-- In a stage without failures every remaining candidate is tried once, in order. -/
theorem stageLoop_ok (o : VOracle) (vars cur : List ℕ) : ∀ (rs : List ℕ) (cs : List ℝ) (ms : List FModel),
    (stageLoop o vars cur rs cs ms).2.2 = true →
    ∃ as : List ℝ, as.length = rs.length ∧ (stageLoop o vars cur rs cs ms).1 = cs ++ as ∧
      (stageLoop o vars cur rs cs ms).2.1 = ms ++ List.zipWith (fun r a => (cur ++ [r], a)) rs as
  | [], cs, ms => fun _ => ⟨[], rfl, by simp [stageLoop], by simp [stageLoop]⟩
  | r :: rs, cs, ms => by
    simp only [stageLoop]
    split
    · intro h
      obtain ⟨as, h1, h2, h3⟩ := stageLoop_ok o vars cur rs _ _ h
      refine ⟨(o ms.length (convertIndex vars (cur ++ [r]))).2 :: as, by simp [h1], ?_, ?_⟩
      · rw [h2]; simp
      · rw [h3]; simp
    · intro h; simp at h

theorem mem_zipWith_iff {cur rs : List ℕ} {as : List ℝ} (h : as.length = rs.length) {m : FModel} :
    m ∈ List.zipWith (fun r a => (cur ++ [r], a)) rs as ↔
      ∃ i, ∃ h1 : i < rs.length, ∃ h2 : i < as.length, m = (cur ++ [rs[i]], as[i]) := by
  rw [List.mem_iff_getElem]
  constructor
  · rintro ⟨i, hi, rfl⟩
    simp only [List.length_zipWith] at hi
    exact ⟨i, by omega, by omega, by simp⟩
  · rintro ⟨i, h1, h2, rfl⟩
    exact ⟨i, by simp; omega, by simp⟩

/-- The invariant of the outer loop while no call failed. -/
structure ForwardInv (k : ℕ) (s : FS) : Prop where
  perm : (s.cur ++ s.rest).Perm (List.range k)
  vlen : ∀ m ∈ s.models, 1 ≤ m.1.length ∧ m.1.length ≤ s.cur.length
  covers : ∀ t < s.cur.length, ∀ v < k, v ∉ s.cur.take t → ∃ c, (s.cur.take t ++ [v], c) ∈ s.models
  only : ∀ m ∈ s.models, ∃ t < s.cur.length, ∃ v < k, v ∉ s.cur.take t ∧ m.1 = s.cur.take t ++ [v]
  best : ∀ t < s.cur.length, ∃ c, (s.cur.take (t + 1), c) ∈ s.models ∧ ∀ m ∈ s.models, m.1.length = t + 1 → c ≤ m.2
  count : 2 * s.models.length + s.rest.length * (s.rest.length + 1) = k * (k + 1)
  nodup : (s.models.map Prod.fst).Nodup
  lens : s.models.map (fun m => m.1.length) =
    (List.range s.cur.length).flatMap (fun t => List.replicate (k - t) (t + 1))

theorem ForwardInv.nodup_all {k : ℕ} {s : FS} (h : ForwardInv k s) : (s.cur ++ s.rest).Nodup :=
  h.perm.nodup_iff.2 List.nodup_range

theorem ForwardInv.length {k : ℕ} {s : FS} (h : ForwardInv k s) : s.cur.length + s.rest.length = k := by
  have := h.perm.length_eq
  simpa using this

/-- The position of the candidate chosen at a stage. -/
noncomputable def stagePick (o : VOracle) (vars : List ℕ) (s : FS) : ℕ :=
  indexMin ((stageLoop o vars s.cur s.rest [] s.models).1 ++
    List.replicate (s.rest.length - (stageLoop o vars s.cur s.rest [] s.models).1.length) 0)

theorem stage_total (o : VOracle) (vars : List ℕ) (s : FS) (h : s.rest ≠ []) :
    ∃ v, stage o vars s = .ok ⟨s.cur ++ [v], s.rest.eraseIdx (stagePick o vars s),
      (stageLoop o vars s.cur s.rest [] s.models).2.1, (stageLoop o vars s.cur s.rest [] s.models).2.2⟩ ∧
      s.rest[stagePick o vars s]? = some v := by
  have hl := stageLoop_length o vars s.cur s.rest [] s.models
  simp only [List.length_nil, Nat.zero_add] at hl
  unfold stage stagePick
  simp only
  set crit := (stageLoop o vars s.cur s.rest [] s.models).1 ++
        List.replicate (s.rest.length - (stageLoop o vars s.cur s.rest [] s.models).1.length) (0 : ℝ) with hcrit
  have hcl : crit.length = s.rest.length := by rw [hcrit]; simp; omega
  have hne : crit ≠ [] := by
    intro h0; rw [h0] at hcl
    exact h (List.length_eq_zero_iff.1 hcl.symm)
  obtain ⟨h1, -⟩ := indexMin_spec crit hne
  rw [hcl] at h1
  refine ⟨s.rest[indexMin crit], ?_, List.getElem?_eq_getElem h1⟩
  rw [List.getElem?_eq_getElem h1]

theorem ForwardInv.step {k : ℕ} {o : VOracle} {vars : List ℕ} {s s' : FS} (h : ForwardInv k s) (hr : s.rest ≠ [])
    (hs : stage o vars s = .ok s') (hok : s'.status = true) : ForwardInv k s' ∧ s'.rest.length + 1 = s.rest.length := by
  obtain ⟨v, hv, hidx⟩ := stage_total o vars s hr
  rw [hv] at hs
  have hs' := (Res.ok.inj hs).symm
  subst hs'
  simp only at hok
  obtain ⟨as, ha, h1, h2⟩ := stageLoop_ok o vars s.cur s.rest [] s.models hok
  simp only [stagePick, h1, h2, List.nil_append, ha, Nat.sub_self, List.replicate_zero, List.append_nil] at hidx ⊢
  set i := indexMin as with hi
  have hne : as ≠ [] := by
    intro h0; rw [h0] at ha; exact hr (List.length_eq_zero_iff.1 ha.symm)
  obtain ⟨hia, hmin⟩ := indexMin_spec as hne
  rw [← hi] at hia
  have hir : i < s.rest.length := by omega
  have hvr : s.rest[i] = v := by rw [List.getElem?_eq_getElem hir] at hidx; exact Option.some.inj hidx
  have hnd := h.nodup_all
  have hnd' := List.nodup_append.1 hnd
  have hperm' : ((s.cur ++ [v]) ++ s.rest.eraseIdx i).Perm (s.cur ++ s.rest) := by
    rw [List.append_assoc]
    apply List.Perm.append_left
    have h1 := (List.erase_getElem hir).cons s.rest[i]
    have h2 := List.perm_cons_erase (List.getElem_mem hir)
    have := (h2.trans h1).symm
    rw [hvr] at this
    exact this
  have hlen : (s.rest.eraseIdx i).length + 1 = s.rest.length := by
    rw [List.length_eraseIdx, if_pos hir]; omega
  have htake : ∀ t, t ≤ s.cur.length → (s.cur ++ [v]).take t = s.cur.take t := by
    intro t ht; rw [List.take_append_of_le_length ht]
  have hmem : ∀ x, x ∈ s.rest ↔ x < k ∧ x ∉ s.cur := by
    intro x
    have hx := h.perm.mem_iff (a := x)
    rw [List.mem_append, List.mem_range] at hx
    constructor
    · intro hxr
      exact ⟨hx.1 (Or.inr hxr), fun hc => hnd'.2.2 x hc x hxr rfl⟩
    · rintro ⟨hxk, hc⟩
      exact (hx.2 hxk).resolve_left hc
  refine ⟨⟨?_, ?_, ?_, ?_, ?_, ?_, ?_, ?_⟩, hlen⟩
  · exact hperm'.trans h.perm
  · intro m hm
    simp only [List.length_append, List.length_singleton]
    rcases List.mem_append.1 hm with hm | hm
    · have := h.vlen m hm; omega
    · obtain ⟨j, _, _, rfl⟩ := (mem_zipWith_iff ha).1 hm
      simp
  · intro t ht x hx hxn
    simp only [List.length_append, List.length_singleton] at ht
    rw [htake t (by omega)] at hxn ⊢
    by_cases htc : t < s.cur.length
    · obtain ⟨c, hc⟩ := h.covers t htc x hx hxn
      exact ⟨c, List.mem_append_left _ hc⟩
    · have : t = s.cur.length := by omega
      subst this
      rw [List.take_length] at hxn ⊢
      obtain ⟨j, hj, hjx⟩ := List.getElem_of_mem ((hmem x).2 ⟨hx, hxn⟩)
      refine ⟨as[j], List.mem_append_right _ ((mem_zipWith_iff ha).2 ⟨j, hj, by omega, by rw [hjx]⟩)⟩
  · intro m hm
    simp only [List.length_append, List.length_singleton]
    rcases List.mem_append.1 hm with hm | hm
    · obtain ⟨t, ht, x, hx, hxn, hmx⟩ := h.only m hm
      exact ⟨t, by omega, x, hx, by rw [htake t (by omega)]; exact hxn, by rw [htake t (by omega)]; exact hmx⟩
    · obtain ⟨j, hj, _, rfl⟩ := (mem_zipWith_iff ha).1 hm
      have := (hmem _).1 (List.getElem_mem hj)
      refine ⟨s.cur.length, by omega, s.rest[j], this.1, ?_, ?_⟩ <;> rw [htake _ le_rfl, List.take_length]
      exact this.2
  · intro t ht
    simp only [List.length_append, List.length_singleton] at ht
    by_cases htc : t < s.cur.length
    · obtain ⟨c, hc, hcm⟩ := h.best t htc
      rw [htake (t + 1) (by omega)]
      refine ⟨c, List.mem_append_left _ hc, fun m hm hml => ?_⟩
      rcases List.mem_append.1 hm with hm | hm
      · exact hcm m hm hml
      · obtain ⟨j, hj, _, rfl⟩ := (mem_zipWith_iff ha).1 hm
        simp only [List.length_append, List.length_singleton] at hml
        omega
    · have : t = s.cur.length := by omega
      subst this
      have e : (s.cur ++ [v]).take (s.cur.length + 1) = s.cur ++ [v] := by
        apply List.take_of_length_le; simp
      rw [e]
      refine ⟨as[i], List.mem_append_right _ ((mem_zipWith_iff ha).2 ⟨i, hir, hia, by rw [hvr]⟩), fun m hm hml => ?_⟩
      rcases List.mem_append.1 hm with hm | hm
      · have := h.vlen m hm; omega
      · obtain ⟨j, hj, hj2, rfl⟩ := (mem_zipWith_iff ha).1 hm
        exact hmin _ (List.getElem_mem hj2)
  · rw [List.length_append, List.length_zipWith, ha, Nat.min_self]
    have := h.count
    rw [← hlen] at this ⊢
    ring_nf at this ⊢
    omega
  · rw [List.map_append, List.nodup_append]
    refine ⟨h.nodup, ?_, ?_⟩
    · have : List.map Prod.fst (List.zipWith (fun r a => (s.cur ++ [r], a)) s.rest as) = s.rest.map (fun r => s.cur ++ [r]) := by
        apply List.ext_getElem
        · simp [ha]
        · intro n h1 h2; simp
      rw [this]
      exact hnd'.2.1.map (fun a b hab => by simpa using hab)
    · intro a ha1 b hb1 hab
      obtain ⟨m, hm, rfl⟩ := List.mem_map.1 ha1
      obtain ⟨m', hm', rfl⟩ := List.mem_map.1 hb1
      obtain ⟨j, hj, hj2, rfl⟩ := (mem_zipWith_iff ha).1 hm'
      have := h.vlen m hm
      rw [hab] at this
      simp at this
  · have hl := h.length
    rw [List.map_append, h.lens, List.length_append, List.length_singleton, List.range_succ, List.flatMap_append]
    congr 1
    simp only [List.flatMap_cons, List.flatMap_nil, List.append_nil]
    rw [show k - s.cur.length = s.rest.length by omega]
    apply List.ext_getElem
    · simp [ha]
    · intro n h1 h2; simp

theorem stages_total (o : VOracle) (vars : List ℕ) (n : ℕ) : ∀ (s : FS), s.rest.length = n →
    ∃ s', stages o vars n s = .ok s' := by
  induction n with
  | zero => intro s _; exact ⟨s, rfl⟩
  | succ n ih =>
    intro s hl
    simp only [stages]
    split
    · obtain ⟨v, hv, hidx⟩ := stage_total o vars s (by intro h; rw [h] at hl; simp at hl)
      rw [hv]
      apply ih
      simp only
      obtain ⟨hlt, -⟩ := List.getElem?_eq_some_iff.1 hidx
      rw [List.length_eraseIdx, if_pos hlt]; omega
    · exact ⟨s, rfl⟩

theorem stages_inv (o : VOracle) (vars : List ℕ) (k n : ℕ) : ∀ (s s' : FS), s.rest.length = n → ForwardInv k s →
    stages o vars n s = .ok s' → s'.status = true → ForwardInv k s' ∧ s'.rest = [] := by
  induction n with
  | zero =>
    intro s s' hl hi hs hok
    simp only [stages, Res.ok.injEq] at hs
    subst hs
    exact ⟨hi, List.length_eq_zero_iff.1 hl⟩
  | succ n ih =>
    intro s s' hl hi hs hok
    simp only [stages] at hs
    split at hs
    · rw [Res.bind_eq_ok'] at hs
      obtain ⟨s1, h1, h2⟩ := hs
      have hne : s.rest ≠ [] := by intro h; rw [h] at hl; simp at hl
      have hst : s1.status = true := by
        by_contra hf
        cases n with
        | zero => simp only [stages, Res.ok.injEq] at h2; subst h2; exact hf hok
        | succ n => simp only [stages, if_neg hf, Res.ok.injEq] at h2; subst h2; exact hf hok
      obtain ⟨hi1, hl1⟩ := hi.step hne h1 hst
      exact ih s1 s' (by omega) hi1 h2 hok
    · rename_i hf
      simp only [Res.ok.injEq] at hs
      subst hs
      exact absurd hok hf

/-- Bookkeeping of statuses: the `n`-th visited model is what the `n`-th call was asked about. -/
def CallsOk (o : VOracle) (vars : List ℕ) (ms : List FModel) : Prop :=
  ∀ n, ∀ h : n < ms.length, (o n (convertIndex vars ms[n].1)) = (true, ms[n].2)

theorem stageLoop_calls (o : VOracle) (vars cur : List ℕ) : ∀ (rs : List ℕ) (cs : List ℝ) (ms : List FModel),
    CallsOk o vars ms →
    ((stageLoop o vars cur rs cs ms).2.2 = true → CallsOk o vars (stageLoop o vars cur rs cs ms).2.1) ∧
    ((stageLoop o vars cur rs cs ms).2.2 = false → ∃ pre m a, (stageLoop o vars cur rs cs ms).2.1 = pre ++ [(m, a)] ∧
      CallsOk o vars pre ∧ o pre.length (convertIndex vars m) = (false, a))
  | [], cs, ms => fun h => ⟨fun _ => by simpa [stageLoop] using h, fun hf => by simp [stageLoop] at hf⟩
  | r :: rs, cs, ms => by
    intro h
    simp only [stageLoop]
    split
    · rename_i hok
      apply stageLoop_calls o vars cur rs
      intro n hn
      simp only [List.length_append, List.length_singleton] at hn
      by_cases hlt : n < ms.length
      · rw [List.getElem_append_left hlt]; exact h n hlt
      · have : n = ms.length := by omega
        subst this
        rw [List.getElem_append_right (le_refl _)]
        simp only [Nat.sub_self, List.getElem_cons_zero]
        exact Prod.ext hok rfl
    · rename_i hok
      refine ⟨fun hf => by simp at hf, fun _ => ⟨ms, _, _, rfl, h, Prod.ext (by simpa using hok) rfl⟩⟩

theorem stages_calls (o : VOracle) (vars : List ℕ) (n : ℕ) : ∀ (s s' : FS), s.rest.length = n →
    s.status = true → CallsOk o vars s.models → stages o vars n s = .ok s' →
    (s'.status = true → CallsOk o vars s'.models) ∧
    (s'.status = false → ∃ pre m a, s'.models = pre ++ [(m, a)] ∧ CallsOk o vars pre ∧
      o pre.length (convertIndex vars m) = (false, a)) := by
  induction n with
  | zero =>
    intro s s' hl hst hc hs
    simp only [stages, Res.ok.injEq] at hs
    subst hs
    exact ⟨fun _ => hc, fun hf => by rw [hst] at hf; cases hf⟩
  | succ n ih =>
    intro s s' hl hst hc hs
    simp only [stages, if_pos hst] at hs
    rw [Res.bind_eq_ok'] at hs
    obtain ⟨s1, h1, h2⟩ := hs
    obtain ⟨v, hv, hidx⟩ := stage_total o vars s (by intro h; rw [h] at hl; simp at hl)
    obtain ⟨hlt, -⟩ := List.getElem?_eq_some_iff.1 hidx
    rw [hv] at h1
    have h1 := Res.ok.inj h1
    have hcalls := stageLoop_calls o vars s.cur s.rest [] s.models hc
    by_cases hf : s1.status = true
    · refine ih s1 s' ?_ hf ?_ h2
      · rw [← h1]; simp only; rw [List.length_eraseIdx, if_pos hlt]; omega
      · rw [← h1] at hf ⊢; exact hcalls.1 hf
    · have : s' = s1 := by
        cases n with
        | zero => simp only [stages, Res.ok.injEq] at h2; exact h2.symm
        | succ n => simp only [stages, if_neg hf, Res.ok.injEq] at h2; exact h2.symm
      subst this
      refine ⟨fun h => absurd h hf, fun h => ?_⟩
      rw [← h1] at h ⊢
      exact hcalls.2 h

theorem ForwardInv.init (k : ℕ) : ForwardInv k { cur := [], rest := List.range k, models := [], status := true } where
  perm := by simp
  vlen := by simp
  covers := (by simp)
  only := by simp
  best := by simp
  count := by simp
  nodup := by simp
  lens := by simp

end Verif.Model

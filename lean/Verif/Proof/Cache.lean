import Verif.Spec.Cache
import Mathlib.Data.List.Induction

/-! # Lemmas about the estimator cache -/

set_option linter.unusedSectionVars false

namespace PyZeal
open Spec
variable {K : Type} [Field K] [DecidableEq K]

theorem EstCache.retrieve_data (c : EstCache K) (o : ℤ) (a b : Cx K) :
    (c.retrieve o a b).2.data = c.data := by
  unfold EstCache.retrieve; dsimp only; split <;> rfl

theorem EstCache.look_retrieve (c : EstCache K) (o : ℤ) (a b : Cx K) (o' : ℤ) (a' b' : Cx K) :
    (c.retrieve o a b).2.look o' a' b' = c.look o' a' b' := by
  unfold EstCache.look; rw [EstCache.retrieve_data]

/-- well-formedness of the nested dictionaries -/
structure CacheWF (c : EstCache K) : Prop where
  outer : c.data.WF
  inner : ∀ o oc, c.data.get? o = some oc → oc.WF

theorem CacheWF.init (d : Bool) : CacheWF (EstCache.init d : EstCache K) :=
  ⟨Dict.wf_nil, by simp [EstCache.init]⟩

theorem CacheWF.of_data {c c' : EstCache K} (h : CacheWF c) (e : c'.data = c.data) : CacheWF c' :=
  ⟨e ▸ h.outer, fun o oc ho => h.inner o oc (e ▸ ho)⟩

theorem CacheWF.store {c : EstCache K} (h : CacheWF c) (o : ℤ) (a b v : Cx K) :
    CacheWF (c.store o a b v) := by
  unfold EstCache.store
  split
  · refine ⟨h.outer.set _ _, ?_⟩
    intro o' oc ho
    rw [Dict.get?_set] at ho
    split at ho
    · cases ho; exact Dict.WF.set Dict.wf_nil _ _
    · exact h.inner _ _ ho
  · rename_i oc' hoc
    refine ⟨h.outer.set _ _, ?_⟩
    intro o' oc ho
    rw [Dict.get?_set] at ho
    split at ho
    · cases ho; exact (h.inner _ _ hoc).set _ _
    · exact h.inner _ _ ho

theorem CacheWF.remove {c : EstCache K} (h : CacheWF c) (o : ℤ) (a b : Cx K) :
    CacheWF (c.remove o a b) := by
  unfold EstCache.remove
  split
  · exact h
  · rename_i oc' hoc
    refine ⟨h.outer.set _ _, ?_⟩
    intro o' oc ho
    rw [Dict.get?_set] at ho
    split at ho
    · cases ho; exact (h.inner _ _ hoc).erase _
    · exact h.inner _ _ ho

theorem EstCache.look_store (c : EstCache K) (o : ℤ) (a b v : Cx K) (o' : ℤ) (a' b' : Cx K) :
    (c.store o a b v).look o' a' b' =
      if o = o' ∧ a = a' ∧ b = b' then some v else c.look o' a' b' := by
  unfold EstCache.store EstCache.look
  rcases h : c.data.get? o with _ | oc
  · simp only [Dict.get?_set]
    by_cases e : o = o'
    · subst e
      simp only [if_true, h, true_and, Dict.get?_cons, Dict.get?_nil, Prod.mk.injEq]
    · simp [e]
  · simp only [Dict.get?_set]
    by_cases e : o = o'
    · subst e
      simp only [if_true, h, true_and, Dict.get?_set, Prod.mk.injEq]
    · simp [e]

theorem EstCache.look_remove {c : EstCache K} (hc : CacheWF c) (o : ℤ) (a b : Cx K) (o' : ℤ)
    (a' b' : Cx K) :
    (c.remove o a b).look o' a' b' =
      if o = o' ∧ a = a' ∧ b = b' then none else c.look o' a' b' := by
  unfold EstCache.remove EstCache.look
  rcases h : c.data.get? o with _ | oc
  · by_cases e : o = o'
    · subst e; simp [h]
    · simp [e]
  · simp only [Dict.get?_set]
    by_cases e : o = o'
    · subst e
      simp only [if_true, h, true_and, Dict.get?_erase (hc.inner _ _ h), Prod.mk.injEq]
    · simp [e]

theorem EstCache.look_reset (c : EstCache K) (o : ℤ) (a b : Cx K) : c.reset.look o a b = none := by
  simp [EstCache.reset, EstCache.look]

theorem CacheWF.step {c : EstCache K} (h : CacheWF c) (op : COp K) : CacheWF (c.step op).1 := by
  cases op with
  | store => exact h.store _ _ _ _
  | retrieve o a b => exact h.of_data (c.retrieve_data o a b)
  | remove => exact h.remove _ _ _
  | reset => exact ⟨Dict.wf_nil, by simp [EstCache.step, EstCache.reset]⟩
  | setDebug b => exact h.of_data rfl

theorem EstCache.run_append (c : EstCache K) (a b : List (COp K)) :
    (c.run (a ++ b)).1 = ((c.run a).1.run b).1 ∧
    (c.run (a ++ b)).2 = (c.run a).2 ++ ((c.run a).1.run b).2 := by
  induction a generalizing c with
  | nil => exact ⟨rfl, rfl⟩
  | cons op a ih =>
    simp only [List.cons_append, EstCache.run]
    obtain ⟨h1, h2⟩ := ih (c.step op).1
    exact ⟨h1, by simp [h2]⟩

theorem CacheWF.run {c : EstCache K} (h : CacheWF c) (ops : List (COp K)) : CacheWF (c.run ops).1 := by
  induction ops generalizing c with
  | nil => exact h
  | cons op ops ih => exact ih (h.step op)

theorem lastStored_append_iff (ops : List (COp K)) (op : COp K) (o : ℤ) (a b v : Cx K) :
    LastStored (ops ++ [op]) o a b v ↔
      op = .store o a b v ∨ (¬ Kills o a b op ∧ LastStored ops o a b v) := by
  constructor
  · rintro ⟨pre, post, he, hp⟩
    rcases List.eq_nil_or_concat post with rfl | ⟨post', q, rfl⟩
    · have := List.append_inj' he rfl
      left; simpa using this.2
    · rw [List.concat_eq_append, ← List.cons_append, ← List.append_assoc] at he
      have := List.append_inj' he rfl
      right
      have e2 : op = q := by simpa using this.2
      subst e2
      exact ⟨hp op (by simp), pre, post', this.1, fun o ho => hp o (by simp [ho])⟩
  · rintro (rfl | ⟨ht, pre, post, rfl, hp⟩)
    · exact ⟨ops, [], by simp, by simp⟩
    · refine ⟨pre, post ++ [op], by simp, ?_⟩
      intro o ho
      rcases List.mem_append.1 ho with ho | ho
      · exact hp o ho
      · simp at ho; subst ho; exact ht

theorem look_iff (d : Bool) (ops : List (COp K)) (o : ℤ) (a b v : Cx K) :
    ((EstCache.init d).run ops).1.look o a b = some v ↔ LastStored ops o a b v := by
  induction ops using List.reverseRecOn with
  | nil => simp [EstCache.run, EstCache.init, EstCache.look, LastStored]
  | append_singleton ops op ih =>
    rw [(EstCache.run_append _ _ _).1, lastStored_append_iff]
    have hwf := (CacheWF.init (K := K) d).run ops
    generalize ((EstCache.init d : EstCache K).run ops).1 = c at *
    cases op with
    | store o' a' b' v' =>
      simp only [EstCache.run, EstCache.step, EstCache.look_store, Kills, COp.store.injEq]
      by_cases h : o' = o ∧ a' = a ∧ b' = b
      · obtain ⟨rfl, rfl, rfl⟩ := h; simp
      · simp only [h, if_false, ih]
        constructor
        · intro h'; exact Or.inr ⟨fun x => x, h'⟩
        · rintro (⟨h1, h2, h3, _⟩ | h')
          · exact absurd ⟨h1, h2, h3⟩ h
          · exact h'.2
    | retrieve o' a' b' => simp [EstCache.run, EstCache.step, EstCache.look_retrieve, Kills, ih]
    | remove o' a' b' =>
      simp only [EstCache.run, EstCache.step, EstCache.look_remove hwf, Kills]
      by_cases h : o' = o ∧ a' = a ∧ b' = b
      · simp [h]
      · simp [h, ih]
    | reset => simp [EstCache.run, EstCache.step, EstCache.look_reset, Kills]
    | setDebug x => simpa [EstCache.run, EstCache.step, EstCache.look, Kills] using ih

end PyZeal

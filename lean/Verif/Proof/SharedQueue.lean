import Verif.Spec.Container
import Mathlib.Algebra.BigOperators.Group.Finset.Basic
import Mathlib.Data.Fintype.BigOperators
import Mathlib.Data.List.Count
import Mathlib.Tactic.Ring

/-! # Lemmas about the shared queue -/

namespace PyZeal
open Spec
variable {K : Type} {n : ℕ}

theorem putsOf_append (a b : List (SharedOp K n)) : putsOf (a ++ b) = putsOf a ++ putsOf b := by
  induction a with
  | nil => rfl
  | cons op a ih => cases op <;> simp [putsOf, ih]

/-- invariant -/
structure SInv [DecidableEq K] (s : SharedState K n) (puts : List (ℕ × Root K)) : Prop where
  split : ∃ taken, puts = taken ++ s.queue ∧ (∀ i, (s.held i).Sublist taken) ∧
    ∀ x, taken.count x = ∑ i, (s.held i).count x

theorem SInv.init [DecidableEq K] : SInv (SharedState.init n : SharedState K n) [] :=
  ⟨[], by simp [SharedState.init]⟩

theorem SInv.step [DecidableEq K] {s : SharedState K n} {puts : List (ℕ × Root K)}
    (h : SInv s puts) (op : SharedOp K n) : SInv (s.step op) (puts ++ putsOf [op]) := by
  obtain ⟨taken, h1, h2, h3⟩ := h
  cases op with
  | put p r =>
    exact ⟨taken, by simp [SharedState.step, putsOf, h1], h2, h3⟩
  | check i =>
    simp only [SharedState.step, putsOf, List.append_nil]
    split
    · exact ⟨taken, h1, h2, h3⟩
    · exact ⟨taken, h1, h2, h3⟩
  | get i =>
    simp only [SharedState.step, putsOf, List.append_nil]
    split
    · split
      · exact ⟨taken, h1, h2, h3⟩
      · rename_i q qs hq
        refine ⟨taken ++ [q], by simp [h1, hq], ?_, ?_⟩
        · intro j
          by_cases e : j = i
          · subst e; simp only [Function.update_self]
            exact (h2 j).append (List.Sublist.refl _)
          · simp only [Function.update_of_ne e]
            exact (h2 j).trans (List.sublist_append_left _ _)
        · intro x
          rw [List.count_append, h3]
          have : ∀ j, (Function.update s.held i (s.held i ++ [q]) j).count x =
              (s.held j).count x + if j = i then [q].count x else 0 := by
            intro j
            by_cases e : j = i
            · subst e; simp [List.count_append]
            · simp [Function.update_of_ne e, e]
          simp only [this, Finset.sum_add_distrib, Finset.sum_ite_eq', Finset.mem_univ, if_true]
    · exact ⟨taken, h1, h2, h3⟩

theorem SInv.run [DecidableEq K] {s : SharedState K n} {puts : List (ℕ × Root K)}
    (h : SInv s puts) (ops : List (SharedOp K n)) : SInv (s.run ops) (puts ++ putsOf ops) := by
  induction ops generalizing s puts with
  | nil => simpa [SharedState.run, putsOf] using h
  | cons op ops ih =>
    have := ih (h.step op)
    rw [List.append_assoc, ← putsOf_append] at this
    exact this

/-- the consumer, if any, whose action this is -/
def SharedOp.consumer : SharedOp K n → Option (Fin n)
  | .put _ _ => none
  | .check i => some i
  | .get i => some i

/-- a lone consumer that has decided to call `get` finds an element -/
theorem lone_never_blocks {s : SharedState K n} {i : Fin n} (h0 : s.wants i = true → s.queue ≠ [])
    (ops : List (SharedOp K n)) (h : ∀ op ∈ ops, ∀ j, op.consumer = some j → j = i) :
    (s.run ops).wants i = true → (s.run ops).queue ≠ [] := by
  induction ops generalizing s with
  | nil => exact h0
  | cons op ops ih =>
    refine ih (s := s.step op) ?_ (fun o ho => h o (List.mem_cons_of_mem _ ho))
    have hop := h op List.mem_cons_self
    cases op with
    | put p r => intro _; simp [SharedState.step]
    | check j =>
      obtain rfl := hop j rfl
      by_cases hw : s.wants j = true
      · simpa [SharedState.step, hw] using h0 hw
      · simp [SharedState.step, hw]
    | get j =>
      obtain rfl := hop j rfl
      by_cases hw : s.wants j = true
      · cases hq : s.queue with
        | nil => exact absurd hq (h0 hw)
        | cons q qs => simp [SharedState.step, hw, hq]
      · simp [SharedState.step, hw]

/-- one round of the transfer loop on a non-empty queue -/
theorem transfer_round {s : SharedState K n} {i : Fin n} (hw : s.wants i = false) {q : ℕ × Root K}
    {qs : List (ℕ × Root K)} (hq : s.queue = q :: qs) :
    (s.step (.check i)).step (.get i) =
      ⟨qs, Function.update s.held i (s.held i ++ [q]), s.wants⟩ := by
  have hu : Function.update s.wants i false = s.wants := by
    rw [← hw]; exact Function.update_eq_self i s.wants
  simp [SharedState.step, hw, hq, hu]

/-- the transfer loop of a lone consumer -/
theorem transfer_drains {s : SharedState K n} {i : Fin n} (hw : s.wants i = false) :
    s.run ((List.replicate s.queue.length [SharedOp.check i, .get i]).flatten) =
      ⟨[], Function.update s.held i (s.held i ++ s.queue), s.wants⟩ := by
  generalize hl : s.queue = l
  induction l generalizing s with
  | nil => obtain ⟨q, h, w⟩ := s; simp at hl; simp [SharedState.run, hl]
  | cons q qs ih =>
    have := ih (s := ⟨qs, Function.update s.held i (s.held i ++ [q]), s.wants⟩) hw rfl
    simp only [List.length_cons, List.replicate_succ, List.flatten_cons]
    have e : ∀ ops, s.run ([SharedOp.check i, .get i] ++ ops) = ((s.step (.check i)).step (.get i)).run ops :=
      fun _ => rfl
    rw [e, transfer_round hw hl, this]
    simp

end PyZeal

import Verif.Spec.Container
import Verif.Proof.Rounding
import Mathlib.Data.List.Nodup
import Mathlib.Data.List.Perm.Basic

/-! # Lemmas about the containers -/

set_option linter.unusedSectionVars false

namespace PyZeal
open Spec
variable {K : Type} [Field K] [LinearOrder K] [IsStrictOrderedRing K] [FloorRing K]

theorem roundsTo_iff (p : ℤ × ℤ) (z w : Cx K) (n : ℤ) :
    RoundsTo p z w ↔ (w, n) = roundRoot (z, n) p := by
  unfold RoundsTo roundRoot
  rw [nearestEven_iff, nearestEven_iff]
  constructor
  · rintro ⟨h1, h2⟩; ext <;> simp [h1, h2]
  · intro h
    have := congrArg Prod.fst h
    exact ⟨congrArg Cx.re this, congrArg Cx.im this⟩

theorem roundsTo_roundRoot (p : ℤ × ℤ) (r : Root K) : RoundsTo p r.1 (roundRoot r p).1 :=
  (roundsTo_iff p r.1 _ r.2).2 rfl

theorem roundRoot_snd (p : ℤ × ℤ) (r : Root K) : (roundRoot r p).2 = r.2 := rfl

theorem roundRoot_idem (p : ℤ × ℤ) (r : Root K) : roundRoot (roundRoot r p) p = roundRoot r p := by
  unfold roundRoot; simp [pyRound_idem]

theorem mem_setAdd (s : List (Root K)) (r x : Root K) : x ∈ setAdd s r ↔ x ∈ s ∨ x = r := by
  unfold setAdd; split
  · rename_i h
    constructor
    · exact Or.inl
    · rintro (h1 | rfl) <;> assumption
  · simp

theorem nodup_setAdd {s : List (Root K)} (h : s.Nodup) (r : Root K) : (setAdd s r).Nodup := by
  unfold setAdd; split
  · exact h
  · rename_i hr
    exact List.nodup_append.2 ⟨h, by simp, by
      intro a ha b hb; simp at hb; subst hb; intro e; subst e; exact hr ha⟩

/-- `addRoot` in normal form; the log flag is irrelevant. -/
theorem addRoot_eq (info : Bool) (c : RContainer K) (r : Root K) (ctx : FilterCtx K) :
    c.addRoot info r ctx =
      if c.accepts r ctx then
        { precision := ctx.precision
          rootSet := setAdd (if ctx.precision = c.precision then c.rootSet else [])
            (roundRoot r ctx.precision)
          filters := c.filters }
      else c := by
  unfold RContainer.addRoot
  split
  · by_cases hp : ctx.precision = c.precision
    · simp only [hp, ne_eq, not_true, if_false, if_true]
      split
      · rename_i h; simp [setAdd, h.2]
      · rfl
    · simp only [hp, ne_eq, not_false_iff, if_true, if_false, RContainer.clear]
      simp [setAdd]
  · rfl

theorem accepts_iff {c : RContainer K} (hwf : c.filters.WF) (r : Root K) (ctx : FilterCtx K) :
    c.accepts r ctx = true ↔ ∀ key p, c.filters.get? key = some p → p r ctx = true := by
  unfold RContainer.accepts
  rw [List.all_eq_true]
  constructor
  · intro h key p hk
    exact h _ (Dict.mem_of_get? hk)
  · rintro h ⟨key, p⟩ hm
    exact h key p (Dict.get?_of_mem hwf hm)

/-- The invariant of a rounding container. -/
structure RInv (c : RContainer K) : Prop where
  wf : c.filters.WF
  nodup : c.rootSet.Nodup
  rounded : ∀ x ∈ c.rootSet, roundRoot x c.precision = x

theorem RInv.init (p : Option (ℤ × ℤ)) (sp : ℤ × ℤ) : RInv (RContainer.init p sp : RContainer K) :=
  ⟨Dict.wf_nil, List.nodup_nil, by simp [RContainer.init]⟩

theorem RInv.step {c : RContainer K} (h : RInv c) (op : ROp K) : RInv (c.step op).1 := by
  cases op with
  | add r ctx info =>
    simp only [RContainer.step, addRoot_eq]
    split
    · refine ⟨h.wf, nodup_setAdd ?_ _, ?_⟩
      · split
        · exact h.nodup
        · exact List.nodup_nil
      · intro x hx
        dsimp only at hx
        rw [mem_setAdd] at hx
        rcases hx with hx | rfl
        · split at hx
          · rename_i e; dsimp only; rw [e]; exact h.rounded x hx
          · simp at hx
        · exact roundRoot_idem _ _
    · exact h
  | remove r =>
    simp only [RContainer.step, RContainer.removeRoot]
    split
    · exact ⟨h.wf, h.nodup.erase _, fun x hx => h.rounded x (List.mem_of_mem_erase hx)⟩
    · exact h
  | clear => exact ⟨h.wf, List.nodup_nil, by simp [RContainer.step, RContainer.clear]⟩
  | register k p => exact ⟨h.wf.set k p, h.nodup, h.rounded⟩
  | unregister k => exact ⟨h.wf.erase k, h.nodup, h.rounded⟩

theorem RContainer.run_append (c : RContainer K) (a b : List (ROp K)) :
    (c.run (a ++ b)).1 = ((c.run a).1.run b).1 ∧
    (c.run (a ++ b)).2 = (c.run a).2 ++ ((c.run a).1.run b).2 := by
  induction a generalizing c with
  | nil => exact ⟨rfl, rfl⟩
  | cons op a ih =>
    simp only [List.cons_append, RContainer.run]
    obtain ⟨h1, h2⟩ := ih (c.step op).1
    exact ⟨h1, by simp [h2]⟩

theorem RInv.run {c : RContainer K} (h : RInv c) (ops : List (ROp K)) : RInv (c.run ops).1 := by
  induction ops generalizing c with
  | nil => exact h
  | cons op ops ih => exact ih (h.step op)

/-- Abstraction map. -/
def RContainer.abs (c : RContainer K) : SetState K :=
  { contents := {x | x ∈ c.rootSet}, precision := c.precision, filters := c.filters.get? }

theorem refine_step {c : RContainer K} (h : RInv c) (op : ROp K) :
    SetStep c.abs op (c.step op).1.abs (c.step op).2 := by
  cases op with
  | add r ctx info =>
    simp only [RContainer.step, addRoot_eq]
    by_cases ha : c.accepts r ctx = true
    · rw [if_pos ha]
      have hall := (accepts_iff h.wf r ctx).1 ha
      have := SetStep.addAccepted c.abs r ctx info (roundRoot r ctx.precision).1 hall
        (roundsTo_roundRoot _ r)
      convert this using 1
      unfold RContainer.abs
      congr 1
      ext x
      simp only [Set.mem_ofPred_eq, mem_setAdd]
      have e : ((roundRoot r ctx.precision).1, r.2) = roundRoot r ctx.precision := rfl
      rw [e]
      by_cases hp : ctx.precision = c.precision
      · simp [hp, or_comm]
      · simp [hp]
    · rw [if_neg ha]
      rw [accepts_iff h.wf] at ha
      push Not at ha
      obtain ⟨key, p, hk, hp⟩ := ha
      exact SetStep.addRejected _ _ _ _ key p hk (by simpa using hp)
  | remove r =>
    simp only [RContainer.step, RContainer.removeRoot]
    split
    · rename_i hm
      have := SetStep.removeHeld c.abs r (roundRoot r c.precision).1 (roundsTo_roundRoot _ r) hm
      convert this using 1
      unfold RContainer.abs
      congr 1
      ext x
      simp only [Set.mem_ofPred_eq, h.nodup.mem_erase_iff]
      exact and_comm
    · rename_i hm
      exact SetStep.removeAbsent c.abs r (roundRoot r c.precision).1 (roundsTo_roundRoot _ r) hm
  | clear =>
    have := SetStep.clear c.abs
    convert this using 1
    unfold RContainer.abs
    simp [RContainer.step, RContainer.clear]
    rfl
  | register k p =>
    have := SetStep.register c.abs k p
    simp only [RContainer.step]
    convert this using 1
    unfold RContainer.abs
    simp only [RContainer.registerFilter]
    congr 1
    funext j
    rw [Dict.get?_set]
    simp [eq_comm]
  | unregister k =>
    have := SetStep.unregister c.abs k
    simp only [RContainer.step]
    convert this using 1
    unfold RContainer.abs
    simp only [RContainer.unregisterFilter]
    congr 1
    funext j
    rw [Dict.get?_erase h.wf]
    simp [eq_comm]

theorem refine_run {c : RContainer K} (h : RInv c) (ops : List (ROp K)) :
    SetRun c.abs ops (c.run ops).1.abs (c.run ops).2 := by
  induction ops generalizing c with
  | nil => exact SetRun.nil _
  | cons op ops ih => exact SetRun.cons (refine_step h op) (ih (h.step op))

theorem roundsTo_unique {p : ℤ × ℤ} {z w w' : Cx K} (h : RoundsTo p z w) (h' : RoundsTo p z w') :
    w = w' := by
  have a := (roundsTo_iff p z w 0).1 h
  have b := (roundsTo_iff p z w' 0).1 h'
  exact congrArg Prod.fst (a.trans b.symm)

theorem setStep_det {s s1 s2 : SetState K} {op : ROp K} {o1 o2 : Option Bool}
    (h1 : SetStep s op s1 o1) (h2 : SetStep s op s2 o2) : s1 = s2 ∧ o1 = o2 := by
  cases h1 with
  | addRejected _ _ _ key p hk hp =>
    cases h2 with
    | addRejected => exact ⟨rfl, rfl⟩
    | addAccepted _ _ _ w hall hw => have := hall key p hk; simp [hp] at this
  | addAccepted _ _ _ w hall hw =>
    cases h2 with
    | addRejected _ _ _ key p hk hp => have := hall key p hk; simp [hp] at this
    | addAccepted _ _ _ w' hall' hw' => rw [roundsTo_unique hw hw']; exact ⟨rfl, rfl⟩
  | removeHeld _ w hw hin =>
    cases h2 with
    | removeHeld _ w' hw' hin' => rw [roundsTo_unique hw hw']; exact ⟨rfl, rfl⟩
    | removeAbsent _ w' hw' hin' => rw [roundsTo_unique hw hw'] at hin; exact absurd hin hin'
  | removeAbsent _ w hw hin =>
    cases h2 with
    | removeHeld _ w' hw' hin' => rw [roundsTo_unique hw hw'] at hin; exact absurd hin' hin
    | removeAbsent => exact ⟨rfl, rfl⟩
  | clear => cases h2; exact ⟨rfl, rfl⟩
  | register => cases h2; exact ⟨rfl, rfl⟩
  | unregister => cases h2; exact ⟨rfl, rfl⟩

theorem setRun_det {s s1 s2 : SetState K} {ops : List (ROp K)} {o1 o2 : List (Option Bool)}
    (h1 : SetRun s ops s1 o1) (h2 : SetRun s ops s2 o2) : s1 = s2 ∧ o1 = o2 := by
  induction h1 generalizing s2 o2 with
  | nil => cases h2; exact ⟨rfl, rfl⟩
  | cons hs _ ih =>
    cases h2 with
    | cons hs' hr' =>
      obtain ⟨rfl, rfl⟩ := setStep_det hs hs'
      obtain ⟨rfl, rfl⟩ := ih hr'
      exact ⟨rfl, rfl⟩

/-- characterisation of adding many roots under one context -/
theorem foldl_add (ctx : FilterCtx K) (rs : List (Bool × Root K)) (c : RContainer K) :
    let c' := rs.foldl (fun c r => c.addRoot r.1 r.2 ctx) c
    c'.filters = c.filters ∧
    ((∃ r ∈ rs, c.accepts r.2 ctx = true) → c'.precision = ctx.precision ∧
      ∀ x, x ∈ c'.rootSet ↔ (∃ r ∈ rs, c.accepts r.2 ctx = true ∧ x = roundRoot r.2 ctx.precision) ∨
        (ctx.precision = c.precision ∧ x ∈ c.rootSet)) ∧
    ((¬ ∃ r ∈ rs, c.accepts r.2 ctx = true) → c' = c) := by
  induction rs generalizing c with
  | nil => simp
  | cons r rs ih =>
    simp only [List.foldl_cons]
    by_cases ha : c.accepts r.2 ctx = true
    · have e : c.addRoot r.1 r.2 ctx = _ := addRoot_eq r.1 c r.2 ctx
      rw [if_pos ha] at e
      rw [e]
      obtain ⟨h1, h2, h3⟩ := ih { precision := ctx.precision
                                  rootSet := setAdd (if ctx.precision = c.precision then c.rootSet
                                    else []) (roundRoot r.2 ctx.precision)
                                  filters := c.filters }
      have hacc : ∀ q : Root K, ({ precision := ctx.precision
                                   rootSet := setAdd (if ctx.precision = c.precision then c.rootSet
                                    else []) (roundRoot r.2 ctx.precision)
                                   filters := c.filters } : RContainer K).accepts q ctx =
          c.accepts q ctx := fun q => rfl
      simp only [hacc] at h1 h2 h3
      refine ⟨h1, fun _ => ?_, fun hn => absurd ⟨r, by simp, ha⟩ hn⟩
      by_cases hex : ∃ q ∈ rs, c.accepts q.2 ctx = true
      · obtain ⟨g1, g2⟩ := h2 hex
        refine ⟨g1, fun x => ?_⟩
        rw [g2 x, mem_setAdd]
        simp only [true_and, List.mem_cons, exists_eq_or_imp]
        generalize (∃ r ∈ rs, c.accepts r.2 ctx = true ∧ x = roundRoot r.2 ctx.precision) = A
        by_cases hp : ctx.precision = c.precision
        · simp only [hp, if_true, true_and, ha]; tauto
        · simp only [hp, if_false, List.not_mem_nil, ha, true_and, false_and, or_false, false_or]
          tauto
      · rw [h3 hex]
        refine ⟨rfl, fun x => ?_⟩
        rw [mem_setAdd]
        simp only [List.mem_cons, exists_eq_or_imp, ha, true_and]
        have : ¬ ∃ a, a ∈ rs ∧ c.accepts a.2 ctx = true ∧ x = roundRoot a.2 ctx.precision := by
          rintro ⟨a, h1, h2, _⟩; exact hex ⟨a, h1, h2⟩
        by_cases hp : ctx.precision = c.precision
        · simp only [hp, if_true, true_and]
          rw [hp] at this; simp only [this, or_false]; exact or_comm
        · simp only [hp, if_false, List.not_mem_nil, false_and, or_false, false_or, this]
    · have e : c.addRoot r.1 r.2 ctx = _ := addRoot_eq r.1 c r.2 ctx
      rw [if_neg ha] at e
      rw [e]
      obtain ⟨h1, h2, h3⟩ := ih c
      refine ⟨h1, fun hex => ?_, fun hn => h3 fun ⟨q, hq, hqa⟩ => hn ⟨q, by simp [hq], hqa⟩⟩
      have hex' : ∃ q ∈ rs, c.accepts q.2 ctx = true := by
        obtain ⟨q, hq, hqa⟩ := hex
        rcases List.mem_cons.1 hq with rfl | hq
        · exact absurd hqa ha
        · exact ⟨q, hq, hqa⟩
      obtain ⟨g1, g2⟩ := h2 hex'
      refine ⟨g1, fun x => ?_⟩
      rw [g2 x]
      simp [ha]

/-! ## filters in force -/

theorem inForce_append_iff (ops : List (ROp K)) (op : ROp K) (key : String) (p : Filter K) :
    InForce (ops ++ [op]) key p ↔ op = .register key p ∨ (¬ Touches key op ∧ InForce ops key p) := by
  constructor
  · rintro ⟨pre, post, he, hp⟩
    rcases List.eq_nil_or_concat post with rfl | ⟨post', q, rfl⟩
    · have := List.append_inj' he rfl
      left; simpa using this.2
    · rw [List.concat_eq_append, ← List.cons_append, ← List.append_assoc] at he
      have := List.append_inj' he rfl
      right
      have e2 : op = q := by simpa using this.2
      subst e2
      exact ⟨hp op (by simp), pre, post', this.1, fun o ho => hp o (by simp [ho])⟩
  · rintro (rfl | ⟨ht, pre, post, rfl, hp⟩)
    · exact ⟨ops, [], by simp, by simp⟩
    · refine ⟨pre, post ++ [op], by simp, ?_⟩
      intro o ho
      rcases List.mem_append.1 ho with ho | ho
      · exact hp o ho
      · simp at ho; subst ho; exact ht

theorem get?_filters_iff (p0 : Option (ℤ × ℤ)) (sp : ℤ × ℤ) (ops : List (ROp K)) (key : String)
    (p : Filter K) :
    ((RContainer.init p0 sp : RContainer K).run ops).1.filters.get? key = some p ↔
      InForce ops key p := by
  induction ops using List.reverseRecOn with
  | nil => simp [RContainer.run, RContainer.init, InForce]
  | append_singleton ops op ih =>
    rw [(RContainer.run_append _ _ _).1, inForce_append_iff]
    have hinv := (RInv.init (K := K) p0 sp).run ops
    generalize hc : ((RContainer.init p0 sp : RContainer K).run ops).1 = c at *
    cases op with
    | add r ctx info =>
      simp only [RContainer.run, RContainer.step, addRoot_eq, Touches]
      have : (if c.accepts r ctx = true then
        { precision := ctx.precision
          rootSet := setAdd (if ctx.precision = c.precision then c.rootSet else [])
            (roundRoot r ctx.precision)
          filters := c.filters } else c).filters = c.filters := by split <;> rfl
      rw [this, ih]; simp
    | remove r =>
      simp only [RContainer.run, RContainer.step, RContainer.removeRoot, Touches]
      have : (if roundRoot r c.precision ∈ c.rootSet then
          (true, { c with rootSet := c.rootSet.erase (roundRoot r c.precision) })
          else (false, c)).2.filters = c.filters := by split <;> rfl
      rw [this, ih]; simp
    | clear => simp [RContainer.run, RContainer.step, RContainer.clear, Touches, ih]
    | register k q =>
      simp only [RContainer.run, RContainer.step, RContainer.registerFilter, Touches,
        Dict.get?_set]
      by_cases e : k = key
      · subst e; simp
      · simp [e, ih]
    | unregister k =>
      simp only [RContainer.run, RContainer.step, RContainer.unregisterFilter, Touches]
      rw [Dict.get?_erase hinv.wf]
      by_cases e : k = key
      · subst e; simp
      · simp [e, ih]

/-! ## plain container -/
omit [Field K] [LinearOrder K] [IsStrictOrderedRing K] [FloorRing K]

theorem PContainer.transfer_go (q rs : List (Root K)) :
    PContainer.transfer.go q rs = { queue := [], roots := rs ++ q } := by
  induction q generalizing rs with
  | nil => simp [transfer.go]
  | cons a q ih => rw [transfer.go, ih]; simp

theorem PContainer.transfer_eq (c : PContainer K) :
    c.transfer = { queue := [], roots := c.roots ++ c.queue } := transfer_go _ _

theorem added_append (a b : List (POp K)) : added (a ++ b) = added a ++ added b := by
  induction a with
  | nil => rfl
  | cons op a ih => cases op <;> simp [added, ih]

theorem PContainer.step_all (c : PContainer K) (op : POp K) :
    (c.step op).2.roots ++ (c.step op).2.queue = (c.roots ++ c.queue) ++ added [op] := by
  cases op <;>
    simp [PContainer.step, PContainer.addRoot, PContainer.getRoots, PContainer.getRootOrders,
      PContainer.transfer_eq, PContainer.removeRoot, PContainer.clear, PContainer.registerFilter,
      PContainer.unregisterFilter, POut.ofPy, added]

theorem PContainer.run_all (c : PContainer K) (ops : List (POp K)) :
    (c.run ops).2.roots ++ (c.run ops).2.queue = (c.roots ++ c.queue) ++ added ops := by
  induction ops generalizing c with
  | nil => simp [PContainer.run, added]
  | cons op ops ih =>
    simp only [PContainer.run]
    rw [ih, step_all, List.append_assoc, ← added_append]
    rfl

end PyZeal

import Verif.Model.ExtContainer
import Verif.Spec.Ext
import Verif.Proof.Ext
import Verif.Proof.Container

/-!
# C144: infinite and undefined roots in rounding containers
-/

set_option linter.unusedSectionVars false

namespace PyZeal.Props
open Spec Ext
variable {K : Type} [Field K] [LinearOrder K] [FloorRing K]

/-! ## Rounding -/

theorem xRound_nan (x : XNum K) (p : ℤ) : xRound x p = .nan ↔ x = .nan := by
  cases x <;> simp [xRound]

theorem xRoundRoot_nan (r : Root (XNum K)) (p : ℤ × ℤ) : isNaN (xRoundRoot r p).1 = isNaN r.1 := by
  simp only [isNaN, xRoundRoot, xRound_nan]

theorem xRoundRoot_finite (r : Root (XNum K)) (p : ℤ × ℤ) (h : FinitePoint r.1) : FinitePoint (xRoundRoot r p).1 := by
  obtain ⟨⟨z⟩, o⟩ := r
  obtain ⟨x, y, h⟩ := h
  cases h
  exact ⟨_, _, rfl⟩

theorem xRootEq_iff (r s : Root (XNum K)) : xRootEq r s = true ↔ r = s ∧ isNaN r.1 = false := by
  obtain ⟨z, m⟩ := r
  obtain ⟨w, n⟩ := s
  simp only [xRootEq, Bool.and_eq_true, ceq_iff, decide_eq_true_eq, Prod.mk.injEq]
  tauto

theorem xMember_iff (s : List (Root (XNum K))) (r : Root (XNum K)) : xMember s r = true ↔ r ∈ s ∧ isNaN r.1 = false := by
  unfold xMember
  rw [List.any_eq_true]
  constructor
  · rintro ⟨x, hx, h⟩
    obtain ⟨e, h'⟩ := (xRootEq_iff _ _).1 h
    subst e
    exact ⟨hx, h'⟩
  · rintro ⟨h1, h2⟩
    exact ⟨r, h1, (xRootEq_iff _ _).2 ⟨rfl, h2⟩⟩

theorem xMember_nan (s : List (Root (XNum K))) (r : Root (XNum K)) (h : isNaN r.1 = true) : xMember s r = false := by
  cases hh : xMember s r with
  | false => rfl
  | true => rw [((xMember_iff _ _).1 hh).2] at h; cases h

/-! ## One call -/

/-- what a call adds is a rounded root which all filters in force accept -/
theorem xStep_mem (c : RContainer (XNum K)) (op : ROp (XNum K)) (r : Root (XNum K)) (h : r ∈ (xStep c op).rootSet) :
    r ∈ c.rootSet ∨ ∃ root ctx info, op = .add root ctx info ∧ r = xRoundRoot root ctx.precision ∧
      ∀ e ∈ c.filters, e.2 root ctx = true := by
  cases op with
  | remove root =>
    left
    simp only [xStep, xRemoveRoot] at h
    split at h
    · exact List.mem_of_mem_eraseP h
    · exact h
  | clear => cases h
  | register k p => exact .inl h
  | unregister k => exact .inl h
  | add root ctx info =>
    simp only [xStep, xAddRoot] at h
    split at h
    · rename_i hall
      have hall' : ∀ e ∈ c.filters, e.2 root ctx = true := fun e he => List.all_eq_true.1 hall e he
      by_cases hp : ctx.precision ≠ c.precision
      · rw [if_pos hp] at h
        dsimp only at h
        split at h
        · cases h
        · unfold xSetAdd at h
          split at h
          · cases h
          · rw [List.nil_append, List.mem_singleton] at h
            exact .inr ⟨root, ctx, info, rfl, h, hall'⟩
      · rw [if_neg hp] at h
        have hp' := not_not.1 hp
        split at h
        · exact .inl h
        · unfold xSetAdd at h
          split at h
          · exact .inl h
          · dsimp only at h
            rcases List.mem_append.1 h with h | h
            · exact .inl h
            · rw [List.mem_singleton] at h
              exact .inr ⟨root, ctx, info, rfl, by rw [hp']; exact h, hall'⟩
    · exact .inl h

theorem in_bounds_defined (root : Root (XNum K)) (ctx : FilterCtx (XNum K)) (h : xZeroInBounds root ctx = true) :
    isNaN root.1 = false := by
  simp only [xZeroInBounds, Bool.and_eq_true] at h
  obtain ⟨⟨h1, h2⟩, h3, h4⟩ := h
  have hn : ∀ a : XNum K, XNum.le a .nan = false := fun a => by cases a <;> rfl
  unfold isNaN
  rw [Bool.or_eq_false_iff, decide_eq_false_iff_not, decide_eq_false_iff_not]
  constructor
  · intro e; rw [e, hn] at h1; cases h1
  · intro e; rw [e, hn] at h3; cases h3

theorem in_bounds_finite (root : Root (XNum K)) (ctx : FilterCtx (XNum K)) (h : xZeroInBounds root ctx = true)
    (h1 : ctx.reRan.1.finite = true) (h2 : ctx.reRan.2.finite = true) (h3 : ctx.imRan.1.finite = true)
    (h4 : ctx.imRan.2.finite = true) : FinitePoint root.1 := by
  simp only [xZeroInBounds, Bool.and_eq_true] at h
  obtain ⟨⟨k1, k2⟩, k3, k4⟩ := h
  have key : ∀ a x b : XNum K, a.finite = true → b.finite = true → XNum.le a x = true → XNum.le x b = true →
      ∃ u, x = .fin u := by
    intro a x b ha hb l1 l2
    cases x with
    | fin u => exact ⟨u, rfl⟩
    | pinf => cases b <;> first | cases hb; done | cases l2
    | ninf => cases a <;> first | cases ha; done | cases l1
    | nan => cases a <;> first | cases ha; done | cases l1
  obtain ⟨u, hu⟩ := key _ _ _ h1 h2 k1 k2
  obtain ⟨v, hv⟩ := key _ _ _ h3 h4 k3 k4
  exact ⟨u, v, Cx.ext hu hv⟩

/-! ## Histories -/

/-- the call does not touch the filter with key `k` -/
def KeepsFilter (k : String) : ROp (XNum K) → Prop
  | .register k' _ => k' ≠ k
  | .unregister k' => k' ≠ k
  | _ => True

theorem get?_erase_other {ν : Type} (d : Dict String ν) {k k' : String} (h : k' ≠ k) : (d.erase k').get? k = d.get? k := by
  induction d with
  | nil => rfl
  | cons e d ih =>
    obtain ⟨j, v⟩ := e
    by_cases hj : j = k'
    · subst hj
      simp [Dict.erase, Dict.get?, h]
    · simp only [Dict.erase, if_neg hj, Dict.get?, ih]

theorem xStep_filter (k : String) (p : Filter (XNum K)) (c : RContainer (XNum K)) (h : c.filters.get? k = some p)
    (op : ROp (XNum K)) (hop : KeepsFilter k op) : (xStep c op).filters.get? k = some p := by
  cases op with
  | add root ctx info =>
    simp only [xStep, xAddRoot]
    split
    · split
      · split <;> exact h
      · split <;> exact h
    · exact h
  | remove root =>
    simp only [xStep, xRemoveRoot]
    split <;> exact h
  | clear => exact h
  | register k' q =>
    simp only [xStep]
    rw [Dict.get?_set, if_neg hop]
    exact h
  | unregister k' =>
    simp only [xStep]
    rw [get?_erase_other _ hop]
    exact h

/-- a property of roots which the filter with key `k` enforces stays true of all held roots -/
theorem xRun_filtered (k : String) (p : Filter (XNum K)) (P : Cx (XNum K) → Prop) (ops : List (ROp (XNum K)))
    (hops : ∀ op ∈ ops, KeepsFilter k op)
    (hP : ∀ root ctx info, ROp.add root ctx info ∈ ops → p root ctx = true → P (xRoundRoot root ctx.precision).1) :
    ∀ c : RContainer (XNum K), c.filters.get? k = some p → (∀ r ∈ c.rootSet, P r.1) →
      ∀ r ∈ (xRun c ops).rootSet, P r.1 := by
  induction ops with
  | nil => exact fun c _ h => h
  | cons op ops ih =>
    intro c hc hr
    refine ih (fun o ho => hops o (List.mem_cons_of_mem _ ho))
      (fun root ctx info hm => hP root ctx info (List.mem_cons_of_mem _ hm)) (xStep c op)
      (xStep_filter k p c hc op (hops op (List.mem_cons_self ..))) ?_
    intro r hm
    rcases xStep_mem c op r hm with h | ⟨root, ctx, info, rfl, rfl, hall⟩
    · exact hr r h
    · exact hP root ctx info (List.mem_cons_self ..) (hall (k, p) (Dict.mem_of_get? hc))

/-- **C144**: while ZERO_IN_BOUNDS is in force, no undefined root gets into a rounding container, and in searches of
bounded rectangles no infinite one; for every history of calls which do not remove or replace this filter. -/
theorem C144_in_bounds (k : String) (c : RContainer (XNum K)) (hc : c.filters.get? k = some xZeroInBounds)
    (ops : List (ROp (XNum K))) (hops : ∀ op ∈ ops, KeepsFilter k op) :
    ((∀ r ∈ c.rootSet, isNaN r.1 = false) → ∀ r ∈ (xRun c ops).rootSet, isNaN r.1 = false) ∧
    ((∀ root ctx info, ROp.add root ctx info ∈ ops → ctx.reRan.1.finite = true ∧ ctx.reRan.2.finite = true ∧
        ctx.imRan.1.finite = true ∧ ctx.imRan.2.finite = true) →
      (∀ r ∈ c.rootSet, FinitePoint r.1) → ∀ r ∈ (xRun c ops).rootSet, FinitePoint r.1) := by
  constructor
  · refine xRun_filtered k _ (fun z => isNaN z = false) ops hops (fun root ctx info _ h => ?_) c hc
    rw [xRoundRoot_nan]
    exact in_bounds_defined root ctx h
  · intro hb
    refine xRun_filtered k _ FinitePoint ops hops (fun root ctx info hm h => ?_) c hc
    obtain ⟨h1, h2, h3, h4⟩ := hb root ctx info hm
    exact xRoundRoot_finite _ _ (in_bounds_finite root ctx h h1 h2 h3 h4)

/-- **C144**: while FUNCTION_VALUE_ZERO is in force, every root that gets into a rounding container is the rounding of a
point where the function is finite with modulus less than `10 ^ -threshold`. -/
theorem C144_value (k : String) (t : ℤ) (f : Cx (XNum K) → Cx (XNum K)) (p : ℤ × ℤ) (c : RContainer (XNum K))
    (hc : c.filters.get? k = some (xFuncValueZero t)) (hempty : c.rootSet = [])
    (ops : List (ROp (XNum K))) (hops : ∀ op ∈ ops, KeepsFilter k op)
    (hctx : ∀ root ctx info, ROp.add root ctx info ∈ ops → ctx.f = f ∧ ctx.precision = p) :
    ∀ r ∈ (xRun c ops).rootSet, ∃ z u v, f z = ⟨.fin u, .fin v⟩ ∧ u * u + v * v < eps10 K t ^ 2 ∧
      r.1 = ⟨xRound z.re p.1, xRound z.im p.2⟩ := by
  refine xRun_filtered k _ (fun w => ∃ z u v, f z = ⟨.fin u, .fin v⟩ ∧ u * u + v * v < eps10 K t ^ 2 ∧
    w = ⟨xRound z.re p.1, xRound z.im p.2⟩) ops hops (fun root ctx info hm h => ?_) c hc ?_
  · obtain ⟨rfl, rfl⟩ := hctx root ctx info hm
    unfold xFuncValueZero at h
    split at h
    · rename_i u v hf
      exact ⟨root.1, u, v, hf, of_decide_eq_true h, rfl⟩
    · cases h
  · intro r hr
    rw [hempty] at hr
    cases hr

/-- **C144**: an undefined root cannot be removed by `removeRoot`: the call reports failure and has no effect. -/
theorem C144_remove (c : RContainer (XNum K)) (r : Root (XNum K)) (h : isNaN r.1 = true) : xRemoveRoot c r = (false, c) := by
  unfold xRemoveRoot
  dsimp only
  rw [xMember_nan _ _ (by rw [xRoundRoot_nan]; exact h)]
  rfl

/-- the undefined roots held -/
def undefinedHeld (c : RContainer (XNum K)) : List (Root (XNum K)) := c.rootSet.filter fun r => isNaN r.1

/-- the call offers an undefined root which the container's filters accept -/
def addsUndefined (c : RContainer (XNum K)) : ROp (XNum K) → Bool
  | .add r ctx _ => isNaN r.1 && c.filters.all fun e => e.2 r ctx
  | _ => false

/-- additions with the container's precision, and removals -/
def AddRemove (p : ℤ × ℤ) : ROp (XNum K) → Prop
  | .add _ ctx _ => ctx.precision = p
  | .remove _ => True
  | _ => False

theorem filter_eraseP_defined (s : List (Root (XNum K))) (r : Root (XNum K)) :
    (s.eraseP fun x => xRootEq x r).filter (fun r => isNaN r.1) = s.filter (fun r => isNaN r.1) := by
  induction s with
  | nil => rfl
  | cons a s ih =>
    rw [List.eraseP_cons]
    cases h : xRootEq a r with
    | true =>
      have hn := ((xRootEq_iff _ _).1 h).2
      rw [List.filter_cons, hn]
      rfl
    | false =>
      dsimp only [cond_false]
      rw [List.filter_cons, List.filter_cons, ih]

theorem xStep_undefined (c : RContainer (XNum K)) (op : ROp (XNum K)) (h : AddRemove c.precision op) :
    (xStep c op).precision = c.precision ∧ (xStep c op).filters = c.filters ∧
    (undefinedHeld (xStep c op)).length = (undefinedHeld c).length + if addsUndefined c op then 1 else 0 := by
  cases op with
  | add root ctx info =>
    have hp : ctx.precision = c.precision := h
    unfold xStep xAddRoot addsUndefined
    dsimp only
    by_cases hall : (c.filters.all fun e => e.2 root ctx) = true
    · have hsame : (if ctx.precision ≠ c.precision then { c with rootSet := [], precision := ctx.precision } else c) = c :=
        if_neg (not_not.2 hp)
      simp only [hall, if_true, hsame, Bool.and_true]
      cases hn : isNaN root.1 with
      | true =>
        have hm : xMember c.rootSet (xRoundRoot root c.precision) = false :=
          xMember_nan _ _ (by rw [xRoundRoot_nan]; exact hn)
        rw [if_neg (by rw [hm]; simp)]
        refine ⟨rfl, rfl, ?_⟩
        unfold undefinedHeld xSetAdd
        rw [hm, if_neg Bool.false_ne_true, List.filter_append, List.length_append, if_pos rfl]
        congr 1
        rw [List.filter_cons, if_pos (by rw [xRoundRoot_nan]; exact hn)]
        rfl
      | false =>
        split
        · exact ⟨rfl, rfl, rfl⟩
        · refine ⟨rfl, rfl, ?_⟩
          unfold undefinedHeld xSetAdd
          split
          · rfl
          · rw [List.filter_append, List.length_append, if_neg Bool.false_ne_true]
            congr 1
            rw [List.filter_cons, if_neg (by rw [xRoundRoot_nan, hn]; exact Bool.false_ne_true)]
            rfl
    · simp only [hall, Bool.and_false, Bool.false_eq_true, if_false]
      exact ⟨trivial, trivial, rfl⟩
  | remove root =>
    unfold xStep xRemoveRoot addsUndefined
    dsimp only
    split
    · refine ⟨rfl, rfl, ?_⟩
      unfold undefinedHeld
      dsimp only
      rw [filter_eraseP_defined]
      rfl
    · exact ⟨rfl, rfl, rfl⟩
  | clear => exact h.elim
  | register k p => exact h.elim
  | unregister k => exact h.elim

/-- **C144**: NaN is different from itself, so that accepted undefined roots are held as often as they are added, and
`removeRoot` does not help: only clearing and a change of precision do. -/
theorem C144_accumulate (c : RContainer (XNum K)) (ops : List (ROp (XNum K)))
    (h : ∀ op ∈ ops, AddRemove c.precision op) :
    (undefinedHeld (xRun c ops)).length = (undefinedHeld c).length + (ops.filter (addsUndefined c)).length := by
  induction ops generalizing c with
  | nil => rfl
  | cons op ops ih =>
    obtain ⟨h1, h2, h3⟩ := xStep_undefined c op (h op (List.mem_cons_self ..))
    have hsame : addsUndefined (xStep c op) = addsUndefined c := by
      funext o
      unfold addsUndefined
      rw [h2]
    show (undefinedHeld (xRun (xStep c op) ops)).length = _
    rw [ih (xStep c op) (fun o ho => by rw [h1]; exact h o (List.mem_cons_of_mem _ ho)), h3, hsame, List.filter_cons]
    split
    · rw [List.length_cons]; omega
    · omega

theorem nodup_eraseP_defined (s : List (Root (XNum K))) (r : Root (XNum K))
    (h : (s.filter fun r => !isNaN r.1).Nodup) : ((s.eraseP fun x => xRootEq x r).filter fun r => !isNaN r.1).Nodup :=
  h.sublist (List.eraseP_sublist.filter _)

theorem xSetAdd_nodup (s : List (Root (XNum K))) (r : Root (XNum K)) (h : (s.filter fun r => !isNaN r.1).Nodup) :
    ((xSetAdd s r).filter fun r => !isNaN r.1).Nodup := by
  unfold xSetAdd
  split
  · exact h
  · rename_i hm
    rw [List.filter_append, List.nodup_append]
    refine ⟨h, ?_, ?_⟩
    · exact (List.nodup_singleton r).filter _
    · intro a ha b hb e
      subst e
      rw [List.mem_filter] at ha hb
      rw [List.mem_singleton] at hb
      obtain ⟨rfl, hb⟩ := hb
      apply hm
      rw [xMember_iff]
      exact ⟨ha.1, by simpa using hb⟩

/-- **C144**: for roots without NaN parts, infinite or not, a rounding container is a set, after every history of calls. -/
theorem C144_set (c : RContainer (XNum K)) (hc : (c.rootSet.filter fun r => !isNaN r.1).Nodup) (ops : List (ROp (XNum K))) :
    ((xRun c ops).rootSet.filter fun r => !isNaN r.1).Nodup := by
  induction ops generalizing c with
  | nil => exact hc
  | cons op ops ih =>
    refine ih (xStep c op) ?_
    cases op with
    | add root ctx info =>
      unfold xStep xAddRoot
      dsimp only
      split
      · by_cases hp : ctx.precision ≠ c.precision
        · rw [if_pos hp]
          dsimp only
          split
          · exact List.nodup_nil
          · exact xSetAdd_nodup [] _ List.nodup_nil
        · rw [if_neg hp]
          split
          · exact hc
          · exact xSetAdd_nodup _ _ hc
      · exact hc
    | remove root =>
      unfold xStep xRemoveRoot
      dsimp only
      split
      · exact nodup_eraseP_defined _ _ hc
      · exact hc
    | clear => exact List.nodup_nil
    | register k p => exact hc
    | unregister k => exact hc

/-! ## The hypotheses can be met -/

/-- a context of a search in [0, 1] × [0, 1] -/
def extCtx : FilterCtx (XNum ℚ) where
  f := fun z => z
  reRan := (.fin 0, .fin 1)
  imRan := (.fin 0, .fin 1)
  precision := (3, 3)

/-- an undefined root, twice, an infinite root, twice, and a proper one -/
def extOps : List (ROp (XNum ℚ)) :=
  [.add (⟨.nan, .nan⟩, 0) extCtx true, .add (⟨.nan, .nan⟩, 0) extCtx false, .add (⟨.pinf, .fin 0⟩, 0) extCtx true,
   .add (⟨.pinf, .fin 0⟩, 0) extCtx false, .add (⟨.fin 0, .fin 0⟩, 0) extCtx true, .remove (⟨.nan, .nan⟩, 0)]

/-- without filters everything gets in, undefined roots as often as they are added -/
example : (xRun ⟨(3, 3), [], []⟩ extOps).rootSet =
    [(⟨.nan, .nan⟩, 0), (⟨.nan, .nan⟩, 0), (⟨.pinf, .fin 0⟩, 0), (⟨.fin 0, .fin 0⟩, 0)] := by decide +kernel

/-- with a filter, only the proper one does -/
example : (xRun ⟨(3, 3), [], [("in bounds", xZeroInBounds)]⟩ extOps).rootSet = [(⟨.fin 0, .fin 0⟩, 0)] ∧
    (xRun ⟨(3, 3), [], [("value", xFuncValueZero 3)]⟩ extOps).rootSet = [(⟨.fin 0, .fin 0⟩, 0)] := by decide +kernel

/-- hypotheses of the theorems for these histories -/
example : (∀ op ∈ extOps, KeepsFilter "in bounds" op) ∧ (∀ op ∈ extOps, AddRemove (3, 3) op) ∧
    (extOps.filter (addsUndefined ⟨(3, 3), [], []⟩)).length = 2 := by
  refine ⟨?_, ?_, by decide +kernel⟩
  · intro op h
    fin_cases h <;> trivial
  · intro op h
    fin_cases h <;> trivial

end PyZeal.Props

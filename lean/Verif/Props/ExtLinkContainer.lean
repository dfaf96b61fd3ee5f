import Verif.Props.ExtLink
import Verif.Model.ExtContainer

/-!
# C145: rounding containers with finite roots
-/

set_option linter.unusedSectionVars false

namespace PyZeal.Props
open Spec Ext ExtLink
variable {K : Type} [Field K] [LinearOrder K] [IsStrictOrderedRing K] [FloorRing K]

/-- related contexts of additions -/
structure FiniteContext (ctx : FilterCtx K) (xctx : FilterCtx (XNum K)) : Prop where
  f : FiniteValues ctx.f xctx.f
  reRan : xctx.reRan = finRan ctx.reRan
  imRan : xctx.imRan = finRan ctx.imRan
  precision : xctx.precision = ctx.precision
  threshold : xctx.threshold = ctx.threshold

/-- the filters agree on finite roots -/
def FiniteFilter (p : Filter K) (xp : Filter (XNum K)) : Prop :=
  ∀ r ctx xctx, FiniteContext ctx xctx → xp (finRoot r) xctx = p r ctx

/-- the same call with finite roots -/
inductive FiniteCall : ROp K → ROp (XNum K) → Prop
  | add (r : Root K) {ctx : FilterCtx K} {xctx : FilterCtx (XNum K)} (info : Bool) (h : FiniteContext ctx xctx) :
    FiniteCall (.add r ctx info) (.add (finRoot r) xctx info)
  | remove (r : Root K) : FiniteCall (.remove r) (.remove (finRoot r))
  | clear : FiniteCall .clear .clear
  | register (key : String) {p : Filter K} {xp : Filter (XNum K)} (h : FiniteFilter p xp) :
    FiniteCall (.register key p) (.register key xp)
  | unregister (key : String) : FiniteCall (.unregister key) (.unregister key)

/-- the same filters under the same keys -/
inductive FiniteFilters : Dict String (Filter K) → Dict String (Filter (XNum K)) → Prop
  | nil : FiniteFilters [] []
  | cons (key : String) {p : Filter K} {xp : Filter (XNum K)} (h : FiniteFilter p xp) {d : Dict String (Filter K)}
    {xd : Dict String (Filter (XNum K))} (hd : FiniteFilters d xd) : FiniteFilters ((key, p) :: d) ((key, xp) :: xd)

/-- related containers: the same precision, the same roots, the same filters -/
structure FiniteContainer (c : RContainer K) (xc : RContainer (XNum K)) : Prop where
  precision : xc.precision = c.precision
  roots : xc.rootSet = c.rootSet.map finRoot
  filters : FiniteFilters c.filters xc.filters

theorem filters_set {d : Dict String (Filter K)} {xd : Dict String (Filter (XNum K))} (hd : FiniteFilters d xd) (key : String)
    {p : Filter K} {xp : Filter (XNum K)} (h : FiniteFilter p xp) : FiniteFilters (d.set key p) (xd.set key xp) := by
  induction hd with
  | nil => exact .cons key h .nil
  | cons k hp hd ih =>
    unfold Dict.set
    by_cases hk : k = key
    · rw [if_pos hk, if_pos hk]; exact .cons _ h hd
    · rw [if_neg hk, if_neg hk]; exact .cons _ hp ih

theorem filters_erase {d : Dict String (Filter K)} {xd : Dict String (Filter (XNum K))} (hd : FiniteFilters d xd)
    (key : String) : FiniteFilters (d.erase key) (xd.erase key) := by
  induction hd with
  | nil => exact .nil
  | cons k hp hd ih =>
    unfold Dict.erase
    by_cases hk : k = key
    · rw [if_pos hk, if_pos hk]; exact hd
    · rw [if_neg hk, if_neg hk]; exact .cons _ hp ih

theorem filters_all {d : Dict String (Filter K)} {xd : Dict String (Filter (XNum K))} (hd : FiniteFilters d xd) (r : Root K)
    {ctx : FilterCtx K} {xctx : FilterCtx (XNum K)} (hc : FiniteContext ctx xctx) :
    (xd.all fun e => e.2 (finRoot r) xctx) = d.all fun e => e.2 r ctx := by
  induction hd with
  | nil => rfl
  | cons k hp hd ih => rw [List.all_cons, List.all_cons, ih]; dsimp only; rw [hp r ctx xctx hc]

theorem finRoot_inj {r s : Root K} (h : finRoot r = finRoot s) : r = s := by
  unfold finRoot at h
  rw [Prod.mk.injEq] at h
  exact Prod.ext (finC_inj h.1) h.2

theorem rootEq_f (r s : Root K) : xRootEq (finRoot r) (finRoot s) = decide (r = s) := by
  rw [Bool.eq_iff_iff]
  unfold xRootEq
  rw [Bool.and_eq_true, ceq_iff, decide_eq_true_iff, decide_eq_true_iff]
  constructor
  · rintro ⟨⟨h1, -⟩, h2⟩; exact finRoot_inj (Prod.ext h1 h2)
  · rintro rfl; exact ⟨⟨rfl, isNaN_f _⟩, rfl⟩

theorem member_f (l : List (Root K)) (r : Root K) : xMember (l.map finRoot) (finRoot r) = decide (r ∈ l) := by
  rw [Bool.eq_iff_iff]
  unfold xMember
  rw [List.any_map, List.any_eq_true, decide_eq_true_iff]
  constructor
  · rintro ⟨s, hs, h⟩
    rw [Function.comp_apply, rootEq_f, decide_eq_true_iff] at h
    rw [← h]; exact hs
  · intro h
    exact ⟨r, h, by rw [Function.comp_apply, rootEq_f, decide_eq_true_iff]⟩

theorem roundRoot_f (r : Root K) (p : ℤ × ℤ) : xRoundRoot (finRoot r) p = finRoot (roundRoot r p) := rfl

theorem eraseP_f (l : List (Root K)) (r : Root K) :
    (l.map finRoot).eraseP (fun x => xRootEq x (finRoot r)) = (l.erase r).map finRoot := by
  induction l with
  | nil => rfl
  | cons a l ih =>
    rw [List.map_cons, List.eraseP_cons, rootEq_f, List.erase_cons]
    by_cases h : a = r
    · simp [h]
    · simp [h, ih]

theorem add_same {c : RContainer K} {xc : RContainer (XNum K)} (h : FiniteContainer c xc) (info : Bool) (r : Root K)
    {ctx : FilterCtx K} {xctx : FilterCtx (XNum K)} (hc : FiniteContext ctx xctx) :
    FiniteContainer (c.addRoot info r ctx) (xAddRoot info xc (finRoot r) xctx) := by
  unfold RContainer.addRoot xAddRoot RContainer.accepts
  rw [filters_all h.filters r hc]
  by_cases ha : (c.filters.all fun e => e.2 r ctx) = true
  · rw [if_pos ha, if_pos ha, hc.precision]
    have key : ∀ (c : RContainer K) (xc : RContainer (XNum K)), FiniteContainer c xc →
        FiniteContainer
          (if info = true ∧ roundRoot r c.precision ∈ c.rootSet then c
            else { c with rootSet := setAdd c.rootSet (roundRoot r c.precision) })
          (if info = true ∧ xMember xc.rootSet (xRoundRoot (finRoot r) xc.precision) = true then xc
            else { xc with rootSet := xSetAdd xc.rootSet (xRoundRoot (finRoot r) xc.precision) }) := by
      intro c xc h
      rw [h.roots, h.precision, roundRoot_f, member_f]
      simp only [decide_eq_true_eq]
      split_ifs
      · exact h
      · refine ⟨rfl, ?_, h.filters⟩
        show xSetAdd (c.rootSet.map finRoot) (finRoot (roundRoot r c.precision)) = _
        unfold xSetAdd setAdd
        rw [member_f]
        simp only [decide_eq_true_eq]
        split_ifs
        · rfl
        · rw [List.map_append]; rfl
    dsimp only
    by_cases hp : ctx.precision ≠ c.precision
    · have hp' : ctx.precision ≠ xc.precision := by rw [h.precision]; exact hp
      simp only [if_pos hp, if_pos hp']
      exact key { c.clear with precision := ctx.precision } { xc with rootSet := [], precision := ctx.precision }
        ⟨rfl, rfl, h.filters⟩
    · have hp' : ¬ ctx.precision ≠ xc.precision := by rw [h.precision]; exact hp
      simp only [if_neg hp, if_neg hp']
      exact key _ _ h
  · rw [if_neg ha, if_neg ha]
    exact h

theorem remove_same {c : RContainer K} {xc : RContainer (XNum K)} (h : FiniteContainer c xc) (r : Root K) :
    (xRemoveRoot xc (finRoot r)).1 = (c.removeRoot r).1 ∧
      FiniteContainer (c.removeRoot r).2 (xRemoveRoot xc (finRoot r)).2 := by
  unfold RContainer.removeRoot xRemoveRoot
  dsimp only
  rw [h.roots, h.precision, roundRoot_f, member_f]
  simp only [decide_eq_true_eq]
  split_ifs
  · exact ⟨rfl, ⟨rfl, eraseP_f _ _, h.filters⟩⟩
  · exact ⟨rfl, h⟩

/-- C145, rounding containers: for finite roots and contexts, every history leads to the same container -/
theorem C145_container {ops : List (ROp K)} {xops : List (ROp (XNum K))} (hops : List.Forall₂ FiniteCall ops xops)
    {c : RContainer K} {xc : RContainer (XNum K)} (h : FiniteContainer c xc) :
    FiniteContainer (c.run ops).1 (xRun xc xops) := by
  induction hops generalizing c xc with
  | nil => exact h
  | cons hop hops ih =>
    refine ih (c := (c.step _).1) (xc := xStep xc _) ?_
    cases hop with
    | add r info hc => exact add_same h info r hc
    | remove r => exact (remove_same h r).2
    | clear => exact ⟨h.precision, rfl, h.filters⟩
    | register k hp => exact ⟨h.precision, h.roots, filters_set h.filters k hp⟩
    | unregister k => exact ⟨h.precision, h.roots, filters_erase h.filters k⟩

/-- … and `removeRoot` gives the same answer -/
theorem C145_container_remove {c : RContainer K} {xc : RContainer (XNum K)} (h : FiniteContainer c xc) (r : Root K) :
    (xRemoveRoot xc (finRoot r)).1 = (c.removeRoot r).1 := (remove_same h r).1

/-- the predefined filters agree on finite roots -/
theorem C145_filters : FiniteFilter (zeroInBounds : Filter K) xZeroInBounds ∧
    ∀ threshold, FiniteFilter (funcValueZero threshold : Filter K) (xFuncValueZero threshold) := by
  refine ⟨fun r ctx xctx hc => ?_, fun t r ctx xctx hc => ?_⟩
  · unfold xZeroInBounds zeroInBounds
    rw [hc.reRan, hc.imRan]
    show (XNum.le (.fin ctx.reRan.1) (.fin r.1.re) && XNum.le (.fin r.1.re) (.fin ctx.reRan.2) &&
      (XNum.le (.fin ctx.imRan.1) (.fin r.1.im) && XNum.le (.fin r.1.im) (.fin ctx.imRan.2))) = _
    simp only [le_f]
    rw [Bool.eq_iff_iff]
    simp [and_assoc]
  · unfold xFuncValueZero funcValueZero
    show (match xctx.f (finC r.1) with
      | ⟨.fin u, .fin v⟩ => decide (u * u + v * v < eps10 K t ^ 2)
      | _ => false) = _
    rw [hc.f]
    rfl

/-- finite histories exist: a new container with a filter, an addition, a removal -/
example (f : Cx ℚ → Cx ℚ) : ∃ (ops : List (ROp ℚ)) (xops : List (ROp (XNum ℚ))), List.Forall₂ FiniteCall ops xops ∧ ops.length = 3 ∧
    FiniteContainer (RContainer.init none (3, 3) : RContainer ℚ) (RContainer.init none (3, 3)) :=
  ⟨[.register "bounds" zeroInBounds, .add (⟨1, 1 / 3⟩, 1) ⟨f, (0, 2), (0, 2), (3, 3), 3⟩ true, .remove (⟨1, 1 / 3⟩, 1)],
    [.register "bounds" xZeroInBounds, .add (finRoot (⟨1, 1 / 3⟩, 1)) ⟨extend f, finRan (0, 2), finRan (0, 2), (3, 3), 3⟩ true,
      .remove (finRoot (⟨1, 1 / 3⟩, 1))],
    .cons (.register _ C145_filters.1) (.cons (.add _ _ ⟨extend_finite f, rfl, rfl, rfl, rfl⟩) (.cons (.remove _) .nil)),
    rfl, ⟨rfl, rfl, .nil⟩⟩

end PyZeal.Props

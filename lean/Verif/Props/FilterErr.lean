import Verif.Spec.FilterErr
import Verif.Spec.Rounding
import Verif.Proof.Rounding

/-! # C111: filters which raise -/

set_option linter.unusedSectionVars false

namespace PyZeal.Props
open Spec
variable {K τ : Type} [Field K] [LinearOrder K] [IsStrictOrderedRing K] [FloorRing K]

theorem filterLoop_asks (root : Root K) (ctx : FilterCtx K) (fs : Dict String (FilterE τ K)) :
    ∀ t, Consults root ctx fs t (filterLoop root ctx fs t).1 (filterLoop root ctx fs t).2 := by
  induction fs with
  | nil => intro t; exact .agreed t
  | cons e fs ih =>
    obtain ⟨key, p⟩ := e
    intro t
    unfold filterLoop
    dsimp only
    rcases h : p root ctx t with ⟨_ | b, t'⟩
    · exact .raises key p fs t t' _ h
    · cases b
      · exact .refuses key p fs t t' h
      · exact .next key p fs t t' _ _ h (ih t')

/-- asking has one outcome -/
theorem asks_unique {root : Root K} {ctx : FilterCtx K} {fs : Dict String (FilterE τ K)} {t t' : τ} {out : Except Err Bool}
    (h : Consults root ctx fs t out t') : filterLoop root ctx fs t = (out, t') := by
  induction h with
  | agreed t => rfl
  | refuses key p fs t t' h => simp only [filterLoop, h]
  | raises key p fs t t' e h => simp only [filterLoop, h]
  | next key p fs t t1 out t' h _ ih => simp only [filterLoop, h, ih]

/-- C111, exceptions. `addRoot` raises exactly if a filter does, when asked with the root as given after all filters registered
before it agreed; it is this exception that is raised, and the container is as before. -/
theorem C111_raises (info : Bool) (root : Root K) (ctx : FilterCtx K) (t t' : τ) (c c' : EContainer τ K) (e : Err) :
    EContainer.addRoot info root ctx (t, c) = (.error e, (t', c')) ↔
      Consults root ctx c.filters t (.error e) t' ∧ c' = c := by
  constructor
  · intro h
    have ha := filterLoop_asks root ctx c.filters t
    unfold EContainer.addRoot at h
    rcases hl : filterLoop root ctx c.filters t with ⟨_ | b, t1⟩
    · rw [hl] at ha
      simp only [hl] at h
      obtain ⟨h1, h2⟩ := Prod.mk.inj h
      obtain ⟨h3, h4⟩ := Prod.mk.inj h2
      cases h1; subst h3
      exact ⟨ha, h4.symm⟩
    · simp only [hl] at h
      cases b <;> cases (Prod.mk.inj h).1
  · rintro ⟨h, rfl⟩
    unfold EContainer.addRoot
    simp only [asks_unique h]

/-- C111, refusals. If a filter disagrees (no filter before it having disagreed or raised) the call returns and the container
is as before. -/
theorem C111_refused (info : Bool) (root : Root K) (ctx : FilterCtx K) (t t' : τ) (c : EContainer τ K)
    (h : Consults root ctx c.filters t (.ok false) t') :
    EContainer.addRoot info root ctx (t, c) = (.ok (), (t', c)) := by
  unfold EContainer.addRoot
  simp only [asks_unique h]

/-- C111, agreement. If all filters agree the root is stored: the container then has the precision of the call; it holds the
root rounded to this precision, and of the roots held before exactly those remain which were held at this precision. -/
theorem C111_agreed (info : Bool) (root : Root K) (ctx : FilterCtx K) (t t' : τ) (c : EContainer τ K)
    (h : Consults root ctx c.filters t (.ok true) t') :
    ∃ c', EContainer.addRoot info root ctx (t, c) = (.ok (), (t', c')) ∧ c'.precision = ctx.precision ∧
      c'.filters = c.filters ∧ ∀ r, r ∈ c'.rootSet ↔
        (r ∈ c.rootSet ∧ c.precision = ctx.precision) ∨ (RoundsTo ctx.precision root.1 r.1 ∧ r.2 = root.2) := by
  refine ⟨c.store info root ctx, ?_, ?_⟩
  · unfold EContainer.addRoot
    simp only [asks_unique h]
  · have hr : ∀ r : Root K, (RoundsTo ctx.precision root.1 r.1 ∧ r.2 = root.2) ↔ r = roundRoot root ctx.precision := by
      intro r
      constructor
      · rintro ⟨⟨h1, h2⟩, h3⟩
        apply Prod.ext
        · exact Cx.ext ((nearestEven_iff _ _ _).1 h1) ((nearestEven_iff _ _ _).1 h2)
        · exact h3
      · rintro rfl
        exact ⟨⟨pyRound_nearest _ _, pyRound_nearest _ _⟩, rfl⟩
    unfold EContainer.store
    by_cases hp : ctx.precision ≠ c.precision
    · rw [if_pos hp]
      dsimp only
      rw [if_neg (fun h => List.not_mem_nil h.2)]
      refine ⟨rfl, rfl, fun r => ?_⟩
      rw [hr]
      simp [setAdd, Ne.symm hp]
    · rw [if_neg hp]
      have hp' : ctx.precision = c.precision := not_not.1 hp
      dsimp only
      split
      · rename_i hm
        refine ⟨hp'.symm, rfl, fun r => ?_⟩
        rw [hr, hp']
        constructor
        · intro h; exact Or.inl ⟨h, rfl⟩
        · rintro (h | rfl)
          · exact h.1
          · exact hm.2
      · refine ⟨hp'.symm, rfl, fun r => ?_⟩
        rw [hr, hp']
        unfold setAdd
        split
        · constructor
          · intro h; exact Or.inl ⟨h, rfl⟩
          · rintro (h | rfl)
            · exact h.1
            · assumption
        · simp

/-- C111, histories. After any history of calls (exceptions being caught by the caller) the container is what it would be had
the calls which raised not touched it: leaving a raising call out of the history, while its effects on the user's state are
kept, does not change the container. -/
theorem C111_history (t : τ) (c : EContainer τ K) (before after : List (ErrOp τ K)) (op : ErrOp τ K) (e : Err)
    (h : (EContainer.step (EContainer.run (t, c) before) op).1 = .error e) :
    (EContainer.run (t, c) (before ++ op :: after)) =
      EContainer.run ((EContainer.run (t, c) (before ++ [op])).1, (EContainer.run (t, c) before).2) after := by
  unfold EContainer.run at *
  rw [List.foldl_append, List.foldl_append]
  rw [List.foldl_cons, List.foldl_cons, List.foldl_nil]
  congr 1
  generalize List.foldl _ (t, c) before = s at *
  cases op with
  | add r ctx info =>
    have h' : (EContainer.addRoot info r ctx (s.1, s.2)).1 = .error e := h
    rcases hr : EContainer.addRoot info r ctx (s.1, s.2) with ⟨o, t', c'⟩
    rw [hr] at h'
    dsimp only at h'
    subst h'
    have := ((C111_raises info r ctx s.1 t' s.2 c' e).1 hr).2
    show (EContainer.addRoot info r ctx (s.1, s.2)).2 = ((EContainer.addRoot info r ctx (s.1, s.2)).2.1, s.2)
    rw [hr, this]
  | remove r => cases h
  | clear => cases h
  | register key p => cases h
  | unregister key => cases h

/-- C111, parallel finder. A filter which raises during the transfer of roots ends it: the call raises this exception, the
container holds what adding the roots taken from the queue before gives, and the root at hand and all later ones are lost. -/
theorem C111_transfer (info : Bool) (ctx : FilterCtx K) (queue : List (Root K)) (s s' : τ × EContainer τ K) (e : Err)
    (h : EContainer.transfer info ctx queue s = (.error e, s')) :
    ∃ done q lost t, queue = done ++ q :: lost ∧ EContainer.transfer info ctx done s = (.ok (), (t, s'.2)) ∧
      Consults q ctx s'.2.filters t (.error e) s'.1 := by
  induction queue generalizing s with
  | nil => cases (Prod.mk.inj h).1
  | cons q queue ih =>
    unfold EContainer.transfer at h
    rcases hr : EContainer.addRoot info q ctx s with ⟨_ | u, s1⟩
    · rw [hr] at h
      dsimp only at h
      obtain ⟨h1, rfl⟩ := Prod.mk.inj h
      cases h1
      obtain ⟨a1, a2⟩ := (C111_raises info q ctx s.1 s1.1 s.2 s1.2 _).1 hr
      refine ⟨[], q, queue, s.1, rfl, ?_, ?_⟩
      · rw [a2]; rfl
      · rw [a2]; exact a1
    · rw [hr] at h
      dsimp only at h
      obtain ⟨done, q', lost, t, b1, b2, b3⟩ := ih s1 h
      refine ⟨q :: done, q', lost, t, by rw [b1]; rfl, ?_, b3⟩
      unfold EContainer.transfer
      rw [hr]
      exact b2

/-- C111: with filters which do not raise the model is that of the other theorems about rounding containers -/
theorem C111_total (info : Bool) (root : Root K) (ctx : FilterCtx K) (t : τ) (c : RContainer K) :
    EContainer.addRoot info root ctx (t, liftContainer c) = (.ok (), (t, liftContainer (c.addRoot info root ctx))) := by
  have hl : ∀ fs : Dict String (Filter K), filterLoop root ctx (fs.map fun e => (e.1, (liftFilter e.2 : FilterE τ K))) t =
      (.ok (fs.all fun e => e.2 root ctx), t) := by
    intro fs
    induction fs with
    | nil => rfl
    | cons e fs ih =>
      obtain ⟨k, p⟩ := e
      simp only [List.map_cons, filterLoop, liftFilter, List.all_cons]
      rcases hp : p root ctx
      · rfl
      · simpa [liftFilter] using ih
  unfold EContainer.addRoot
  have h := hl c.filters
  change filterLoop root ctx (liftContainer c).filters t = _ at h
  simp only [h]
  unfold RContainer.addRoot RContainer.accepts
  rcases hb : c.filters.all fun e => e.2 root ctx
  · simp [liftContainer]
  · simp only [if_true]
    congr 2
    unfold EContainer.store
    by_cases hp : ctx.precision ≠ c.precision
    · have hp' : ctx.precision ≠ (liftContainer (τ := τ) c).precision := hp
      rw [if_pos hp, if_pos hp']
      rw [apply_ite liftContainer]
      rfl
    · have hp' : ¬ ctx.precision ≠ (liftContainer (τ := τ) c).precision := hp
      rw [if_neg hp, if_neg hp']
      rw [apply_ite liftContainer]
      rfl

/-! ### example -/

/-- counts how often it is asked, and raises `ValueError` for roots with negative real part -/
def countingFilter : FilterE ℕ ℚ := fun r _ t => if r.1.re < 0 then (.error .valueError, t + 1) else (.ok true, t + 1)

/-- refuses roots with real part above 5 -/
def smallFilter : FilterE ℕ ℚ := fun r _ t => (.ok (decide (r.1.re ≤ 5)), t)

/-- a container with both -/
def raisingContainer : EContainer ℕ ℚ := ⟨(1, 1), [(⟨1, 1⟩, 2)], [("small", smallFilter), ("count", countingFilter)]⟩

/-- a context with one decimal -/
def oneDecimal (p : ℤ) : FilterCtx ℚ := { f := fun z => z, reRan := (0, 10), imRan := (0, 10), precision := (p, p) }

/-- non-vacuity: a refused root (the second filter is not asked), a stored one, and one which makes the second filter raise,
even at another precision -/
example : (EContainer.addRoot false (⟨7, 0⟩, 1) (oneDecimal 2) (0, raisingContainer)).2.1 = 0 ∧
    (EContainer.addRoot false (⟨7, 0⟩, 1) (oneDecimal 2) (0, raisingContainer)).2.2.rootSet = [(⟨1, 1⟩, 2)] ∧
    (EContainer.addRoot false (⟨2, 0⟩, 1) (oneDecimal 2) (0, raisingContainer)).2.2.rootSet = [(⟨2, 0⟩, 1)] ∧
    (EContainer.addRoot false (⟨-2, 0⟩, 1) (oneDecimal 2) (0, raisingContainer)).1 = .error .valueError ∧
    (EContainer.addRoot false (⟨-2, 0⟩, 1) (oneDecimal 2) (0, raisingContainer)).2.1 = 1 := by decide +kernel
example : Consults (⟨-2, 0⟩, 1) (oneDecimal 2) raisingContainer.filters 0 (.error .valueError) 1 :=
  .next _ _ _ _ 0 _ _ (by decide +kernel) (.raises _ _ _ _ _ _ (by decide +kernel))

/-- non-vacuity: in a transfer the third root raises; the fourth is lost -/
example : (EContainer.transfer false (oneDecimal 1) [(⟨2, 0⟩, 1), (⟨7, 0⟩, 1), (⟨-2, 0⟩, 1), (⟨3, 0⟩, 1)]
      (0, raisingContainer)).1 = .error .valueError ∧
    (EContainer.transfer false (oneDecimal 1) [(⟨2, 0⟩, 1), (⟨7, 0⟩, 1), (⟨-2, 0⟩, 1), (⟨3, 0⟩, 1)]
      (0, raisingContainer)).2.2.rootSet = [(⟨1, 1⟩, 2), (⟨2, 0⟩, 1)] := by decide +kernel

end PyZeal.Props

import Verif.Proof.Runs

/-! # The simple argument algorithm -/

set_option linter.unusedSectionVars false

namespace PyZeal
open Spec
variable {K : Type} {σ : Type} [Field K] [LinearOrder K] [IsStrictOrderedRing K] [FloorRing K]

/-- 0.8 turns or more are rounded to at least one turn -/
theorem one_le_order {pi : K} (hpi : 0 < pi) {c : Cell K} (h : Cell.Turns pi c) :
    1 ≤ roundHalfEven (c.phi / (2 * pi)) := by
  have h2 : (8 / 10 : K) ≤ c.phi / (2 * pi) := by
    rw [le_div_iff₀ (by positivity)]; exact h
  obtain ⟨h1, _⟩ := roundHalfEven_spec (c.phi / (2 * pi))
  rw [abs_le] at h1
  by_contra hlt
  have : roundHalfEven (c.phi / (2 * pi)) ≤ 0 := by omega
  have : ((roundHalfEven (c.phi / (2 * pi)) : ℤ) : K) ≤ 0 := by exact_mod_cast this
  linarith [h1.2]

/-- what the simple algorithm does at a final cell -/
def simpleAct (pi : K) (ctx : RCtx K) (c : Cell K) : Py (World σ K) Unit :=
  if ¬ Cell.Turns pi c then World.advance ctx (Cell.area c)
  else do
    World.addRoot (candidate pi c)
    World.advance ctx 0

theorem simple_stops (est : LineEst σ K) (pi : K) (ctx : RCtx K) :
    Stops est ctx (simpleDecide est pi) (Cell.Stop pi ctx.precision) (simpleAct pi ctx) := by
  intro self c
  rw [simpleDecide_eq]
  unfold simpleAct
  constructor
  · intro h
    by_cases ht : Cell.Turns pi c
    · have hs : Cell.Small ctx.precision c := by
        rcases h with h | h
        · exact absurd ht h
        · exact h
      rw [if_neg (not_not.2 ht), if_neg (not_not.2 ht), if_pos hs]
      rfl
    · rw [if_pos ht, if_pos ht]
  · intro h
    unfold Cell.Stop at h
    push Not at h
    rw [if_neg (not_not.2 h.1), if_neg h.2]

theorem stop_not_small {pi : K} {p : ℤ × ℤ} (c : Cell K) (h : ¬ Cell.Stop pi p c) : ¬ Cell.Small p c := by
  unfold Cell.Stop at h; push Not at h; exact h.2

theorem stop_turns {pi : K} {p : ℤ × ℤ} (c : Cell K) (h : ¬ Cell.Stop pi p c) :
    Cell.Turns pi c ∧ ¬ Cell.Small p c := by
  unfold Cell.Stop at h; push Not at h; exact h

theorem World.tick_ok {w w' : World σ K} (h : World.tick w = (.ok (), w')) :
    w'.added = w.added ∧ w'.advances = w.advances ∧ w'.log = w.log ∧ w'.cache = w.cache ∧ w'.est = w.est := by
  unfold World.tick at h
  rcases hf : w.fuse with _ | _ | n <;> rw [hf] at h <;> simp at h
  · subst h; simp
  · subst h; simp

theorem World.tick_any (w : World σ K) : (World.tick w).2.added = w.added ∧
    (World.tick w).2.advances = w.advances ∧ (World.tick w).2.log = w.log := by
  unfold World.tick
  rcases hf : w.fuse with _ | _ | n <;> simp

theorem addRoot_ok {r : Root K} {w w' : World σ K} (h : World.addRoot r w = (.ok (), w')) :
    w'.added = w.added ++ [r] ∧ w'.advances = w.advances ∧ w'.log = w.log := by
  unfold World.addRoot at h
  rw [Py.bind_run] at h
  rcases ht : World.tick w with ⟨_ | _, w1⟩ <;> rw [ht] at h
  · simp at h
  · simp only [Py.modify_run, Prod.mk.injEq, true_and] at h
    obtain ⟨h1, h2, h3, _⟩ := World.tick_ok ht
    subst h
    simp [h1, h2, h3]

theorem addRoot_any (r : Root K) (w : World σ K) :
    (World.addRoot r w).2.log = w.log ∧ (World.addRoot r w).2.advances = w.advances ∧
    ((World.addRoot r w).2.added = w.added ∨ (World.addRoot r w).2.added = w.added ++ [r]) := by
  unfold World.addRoot
  rw [Py.bind_run]
  have := World.tick_any w
  rcases ht : World.tick w with ⟨_ | _, w1⟩ <;> rw [ht] at this <;> obtain ⟨h1, h2, h3⟩ := this
  · exact ⟨h3, h2, Or.inl h1⟩
  · dsimp only at h1 h2 h3 ⊢
    exact ⟨h3, h2, Or.inr (by simp [h1])⟩

theorem advance_ok {ctx : RCtx K} {a : K} {w w' : World σ K} (h : World.advance ctx a w = (.ok (), w')) :
    w'.advances = w.advances ++ (if ctx.progress then [a] else []) ∧ w'.added = w.added ∧ w'.log = w.log := by
  unfold World.advance at h
  by_cases hp : ctx.progress = true
  · rw [if_pos hp] at h
    rw [Py.bind_run] at h
    rcases ht : World.tick w with ⟨_ | _, w1⟩ <;> rw [ht] at h
    · simp at h
    · simp only [Py.modify_run, Prod.mk.injEq, true_and] at h
      obtain ⟨h1, h2, h3, _⟩ := World.tick_ok ht
      subst h
      simp [h1, h2, h3, hp]
  · rw [if_neg hp] at h
    simp only [Py.pure_run, Prod.mk.injEq, true_and] at h
    subst h
    simp [hp]

theorem advance_any (ctx : RCtx K) (a : K) (w : World σ K) :
    (World.advance ctx a w).2.log = w.log ∧ (World.advance ctx a w).2.added = w.added := by
  unfold World.advance
  by_cases hp : ctx.progress = true
  · rw [if_pos hp, Py.bind_run]
    have := World.tick_any w
    rcases ht : World.tick w with ⟨_ | _, w1⟩ <;> rw [ht] at this <;> obtain ⟨h1, h2, h3⟩ := this
    · exact ⟨h3, h1⟩
    · exact ⟨h3, h1⟩
  · rw [if_neg hp]; simp

theorem never_tick {e : Err} (h2 : e ≠ .keyboardInterrupt) : Never e (World.tick : Py (World σ K) Unit) := by
  intro w
  unfold World.tick
  rcases hf : w.fuse with _ | _ | n <;> simp [Ne.symm h2]

theorem never_addRoot {e : Err} (h2 : e ≠ .keyboardInterrupt) (r : Root K) :
    Never e (World.addRoot r : Py (World σ K) Unit) :=
  Never.bind (never_tick h2) fun _ w => by simp

theorem never_advance {e : Err} (h2 : e ≠ .keyboardInterrupt) (ctx : RCtx K) (a : K) :
    Never e (World.advance ctx a : Py (World σ K) Unit) := by
  unfold World.advance
  split
  · exact Never.bind (never_tick h2) fun _ w => by simp
  · exact Never.pure _

theorem simpleAct_never (pi : K) (ctx : RCtx K) (c : Cell K) :
    Never .recursionError (simpleAct pi ctx c : Py (World σ K) Unit) := by
  unfold simpleAct
  split
  · exact never_advance (by simp) _ _
  · exact Never.bind (never_addRoot (by simp) _) fun _ => never_advance (by simp) _ _

/-- effect at a final cell: completed -/
theorem simple_leafEffect (pi : K) (ctx : RCtx K) :
    LeafEffect (σ := σ) (simpleAct pi ctx) (fun c => if ctx.progress then [leafAdvance pi c] else [])
      (fun c A => A = if Cell.Turns pi c then [candidate pi c] else []) := by
  intro c w w' h
  unfold simpleAct at h
  by_cases ht : Cell.Turns pi c
  · rw [if_neg (not_not.2 ht)] at h
    rw [Py.bind_run] at h
    rcases ha : World.addRoot (candidate pi c) w with ⟨_ | _, w1⟩ <;> rw [ha] at h
    · simp at h
    · obtain ⟨a1, a2, a3⟩ := addRoot_ok ha
      obtain ⟨b1, b2, b3⟩ := advance_ok h
      refine ⟨b3.trans a3, ?_, _, by rw [b2, a1], by simp only [if_pos ht]⟩
      rw [b1, a2]
      simp [leafAdvance, ht]
  · rw [if_pos ht] at h
    obtain ⟨b1, b2, b3⟩ := advance_ok h
    refine ⟨b3, ?_, [], by rw [b2]; simp, by simp only [if_neg ht]⟩
    rw [b1]
    simp [leafAdvance, ht]

/-- effect at a final cell: any outcome -/
theorem simple_actJust (pi : K) (hpi : 0 < pi) (ctx : RCtx K) :
    ActJust (σ := σ) ctx.f (Cell.Stop pi ctx.precision) (simpleAct pi ctx) (fun c r => Cell.Turns pi c ∧
      r = candidate pi c) := by
  intro c w hs
  unfold simpleAct
  by_cases ht : Cell.Turns pi c
  · rw [if_neg (not_not.2 ht), Py.bind_run]
    obtain ⟨a1, a2, a3⟩ := addRoot_any (candidate pi c) w
    rcases ha : World.addRoot (candidate pi c) w with ⟨_ | _, w1⟩ <;> rw [ha] at a1 a2 a3 <;>
      dsimp only at a1 a2 a3 ⊢
    · rcases a3 with a3 | a3
      · exact ⟨a1, [], by simpa using a3, by simp⟩
      · exact ⟨a1, _, a3, by simpa using Or.inr ht⟩
    · obtain ⟨b1, b2⟩ := advance_any ctx 0 w1
      rcases a3 with a3 | a3
      · exact ⟨b1.trans a1, [], by rw [b2, a3]; simp, by simp⟩
      · exact ⟨b1.trans a1, _, by rw [b2, a3], by simpa using Or.inr ht⟩
  · rw [if_pos ht]
    obtain ⟨b1, b2⟩ := advance_any ctx (Cell.area c) w
    exact ⟨b1, [], by rw [b2]; simp, by simp⟩

/-- In a completed run of the simple search, the additions of non-zero order are the candidates of the
final cells with at least one turn. -/
theorem segments_filter {f : Cx K → Cx K} {pi : K} (hpi : 0 < pi) {leaves : List (Cell K)} {A : List (Root K)}
    (h : Segments f (fun c A => A = if Cell.Turns pi c then [candidate pi c] else []) leaves A) :
    A.filter (fun r => decide (r.2 ≠ 0)) =
      (leaves.filter fun c => decide (Cell.Turns pi c)).map (candidate pi) ∧
    ∀ r ∈ A, r.2 = 0 → f r.1 = 0 := by
  obtain ⟨segs, rfl, rfl, h⟩ := h
  induction segs with
  | nil => simp
  | cons s segs ih =>
    obtain ⟨i1, i2⟩ := ih fun s hs => h s (by simp [hs])
    obtain ⟨hn, hl⟩ := h s (by simp)
    rcases s with ⟨_ | c, zs⟩
    · have hn := hn rfl
      dsimp only at hn
      constructor
      · simp only [List.flatMap_cons, List.filter_append, List.filterMap_cons]
        rw [i1]
        have : zs.filter (fun r => decide (r.2 ≠ 0)) = [] := by
          rw [List.filter_eq_nil_iff]
          intro r hr
          simpa using (hn r hr).1
        rw [this]; rfl
      · intro r hr h0
        simp only [List.flatMap_cons, List.mem_append] at hr
        rcases hr with hr | hr
        · exact (hn r hr).2
        · exact i2 r hr h0
    · have hl := hl c rfl
      dsimp only at hl
      constructor
      · simp only [List.flatMap_cons, List.filter_append, List.filterMap_cons, List.filter_cons]
        rw [i1, hl]
        by_cases ht : Cell.Turns pi c
        · have := one_le_order hpi ht
          have h0 : (candidate pi c).2 ≠ 0 := by unfold candidate; dsimp only; omega
          simp [ht, h0]
        · simp [ht]
      · intro r hr h0
        simp only [List.flatMap_cons, List.mem_append] at hr
        rcases hr with hr | hr
        · rw [hl] at hr
          by_cases ht : Cell.Turns pi c
          · have := one_le_order hpi ht
            rw [if_pos ht] at hr
            simp only [List.mem_singleton] at hr
            rw [hr] at h0
            unfold candidate at h0
            dsimp only at h0
            omega
          · rw [if_neg ht] at hr; simp at hr
        · exact i2 r hr h0

/-- a completed run of the simple search -/
theorem simple_run {est : LineEst σ K} {pi : K} (hpi : 0 < pi) {ctx : RCtx K} (hest : BoundaryHits est ctx) {limit : ℕ}
    {w w' : World σ K} (h : simpleArgument est pi limit ctx w = (.ok (), w')) :
    ∃ (phi : K) (t : Tree K) (A : List (Root K)),
      t.Valid (Cell.Stop pi ctx.precision) ctx.precision ⟨ctx.reRan, ctx.imRan, phi⟩ ∧
      w'.log = w.log ++ (⟨ctx.reRan, ctx.imRan, phi⟩ :: t.log ctx.precision ⟨ctx.reRan, ctx.imRan, phi⟩) ∧
      w'.advances = w.advances ++ (if ctx.progress then
        (t.leaves ctx.precision ⟨ctx.reRan, ctx.imRan, phi⟩).map (leafAdvance pi) else []) ∧
      w'.added = w.added ++ A ∧
      A.filter (fun r => decide (r.2 ≠ 0)) = ((t.leaves ctx.precision ⟨ctx.reRan, ctx.imRan, phi⟩).filter
        fun c => decide (Cell.Turns pi c)).map (candidate pi) ∧
      ∀ r ∈ A, r.2 = 0 → ctx.f r.1 = 0 := by
  obtain ⟨phi, t, h1, h2, h3, A, h4, h5⟩ :=
    calcRoots_tree hest (simple_stops est pi ctx) (simple_leafEffect pi ctx) limit w w' h
  obtain ⟨h6, h7⟩ := segments_filter hpi h5
  refine ⟨phi, t, A, h1, h2, ?_, h4, h6, h7⟩
  rw [h3]
  by_cases hp : ctx.progress = true
  · simp only [hp, if_true, List.append_cancel_left_eq]
    rw [← List.flatMap_pure_eq_map]
    rfl
  · simp [hp]

end PyZeal
